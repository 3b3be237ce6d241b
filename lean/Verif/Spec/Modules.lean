import Verif.Spec.Syntax
import Verif.Model.Parse
/-!
# Programs made of several files, for C99

A source text is plain text, pieces of the grammar (`Spec/Syntax`), and imports between them. An import by name brings
the pieces of the library the first time and nothing later; an import of a file brings its pieces each time. What is
imported may import in turn.
-/

namespace Yupp

/-- One piece of a text other than plain text, and what follows it. The rules are those of the grammar. -/
inductive OnePiece (m : Mode) : ExprText → Str → Str → Prop where
  | expr {x : Expr} {s s' : Str} : Reads m (.body x) s s' → ['(', '$'] <+: s → NoDirective s → OnePiece m (.expr x .nil) s s'
  | set {t : Target} {x : Expr} {g1 g2 u s s' s'' : Str} : IsGap g1 → WrittenTarget t u → IsGap g2 → Reads m (.form x) s s' →
      Closing ['s', 'e', 't'] s' s'' → NoName (g2 ++ s) ∨ (∃ as, t = .many as) →
      OnePiece m (.set t x .nil) ('(' :: '$' :: 's' :: 'e' :: 't' :: (g1 ++ (u ++ (g2 ++ s)))) s''
  | defMacro {a : Str} {as : List Str} {b g1 g2 g3 t s : Str} : IsGap g1 → IsName a → IsGap g2 → IsGap g3 → Names as t →
      Balanced b → (∀ c ∈ b, Admissible c) →
      OnePiece m (.macro a as b .nil) ('(' :: '$' :: 'm' :: 'a' :: 'c' :: 'r' :: 'o' ::
        (g1 ++ (a ++ (g2 ++ '(' :: (g3 ++ (t ++ ')' :: (b ++ ')' :: s))))))) s
  | comment {b s : Str} : Balanced b → (∀ c ∈ b, Admissible c) → OnePiece m (.comment .nil) ('(' :: '$' :: '!' :: (b ++ ')' :: s)) s
  | quote {b s : Str} : Balanced b → (∀ c ∈ b, Admissible c) → OnePiece m (.str b .nil) ('(' :: '`' :: (b ++ ')' :: s)) s
  | quote' {b s : Str} : Balanced b → (∀ c ∈ b, Admissible c) →
      OnePiece m (.str b .nil) ('(' :: '$' :: 'q' :: 'u' :: 'o' :: 't' :: 'e' :: (b ++ ')' :: s)) s
  | literal {l s : Str} : TextLiteral m l s → OnePiece m (.str l .nil) (l ++ s) s
  | remark {l s : Str} : TextRemark m.remarks l s → OnePiece m (.remark l .nil) (l ++ s) s

/-- The text `w` in front of `s` is plain. -/
def PlainRun (m : Mode) (w s : Str) : Prop := ∀ a c b, w = a ++ c :: b → PlainAt m .file 0 0 c (b ++ s)

/-- The parts of a source text. -/
inductive SourcePart where
  | chars (w : Str)       -- plain text
  | piece (x : ExprText)  -- a piece of the grammar
  | lib (a : Str)         -- `($import a)`
  | file (l : Str)        -- `($import "..")`, `l` with its quotation marks

/-- Whether plain text comes next. -/
def plainNext : List SourcePart → Bool
  | .chars _ :: _ => true
  | _ => false

/-- `Source m xs s`: the text `s` is divided into the parts `xs`. -/
inductive Source (m : Mode) : List SourcePart → Str → Prop where
  | done : Source m [] []
  | chars {w s : Str} {xs : List SourcePart} : w ≠ [] → PlainRun m w s → plainNext xs = false → Source m xs s →
      Source m (.chars w :: xs) (w ++ s)
  | piece {x : ExprText} {s s' : Str} {xs : List SourcePart} : OnePiece m x s s' → Source m xs s' → Source m (.piece x :: xs) s
  | lib {a g1 g2 s s' : Str} {xs : List SourcePart} : IsGap g1 → IsName a → IsGap g2 →
      Closing ['i', 'm', 'p', 'o', 'r', 't'] s s' → Source m xs s' →
      Source m (.lib a :: xs) ('(' :: '$' :: 'i' :: 'm' :: 'p' :: 'o' :: 'r' :: 't' :: (g1 ++ (a ++ (g2 ++ s))))
  | file {q : Char} {l g1 g2 s s' : Str} {xs : List SourcePart} : IsGap g1 → QuoteMark q → TextLiteral m (q :: l) (g2 ++ s) →
      IsGap g2 → Closing ['i', 'm', 'p', 'o', 'r', 't'] s s' → Source m xs s' →
      Source m (.file (q :: l) :: xs) ('(' :: '$' :: 'i' :: 'm' :: 'p' :: 'o' :: 'r' :: 't' :: (g1 ++ (q :: l ++ (g2 ++ s))))

/-- A source text with what it imports. -/
inductive Expanded where
  | nil
  | chars (w : Str) (r : Expanded)
  | piece (x : ExprText) (r : Expanded)
  | module (q r : Expanded)

/-- `Expands m e known xs r known'`: what the parts `xs` bring if the files `known` were read before, and the files known
    then. A library is read if its file is not known; an included file is read each time. -/
inductive Expands (m : Mode) (e : PEnv) : List Str → List SourcePart → Expanded → List Str → Prop where
  | nil {known : List Str} : Expands m e known [] .nil known
  | chars {known known' : List Str} {w : Str} {xs : List SourcePart} {r : Expanded} : Expands m e known xs r known' →
      Expands m e known (.chars w :: xs) (.chars w r) known'
  | piece {known known' : List Str} {x : ExprText} {xs : List SourcePart} {r : Expanded} : Expands m e known xs r known' →
      Expands m e known (.piece x :: xs) (.piece x r) known'
  | again {known known' : List Str} {a : Str} {xs : List SourcePart} {r : Expanded} : a ++ ['.', 'y', 'u'] ∈ known →
      Expands m e known xs r known' → Expands m e known (.lib a :: xs) r known'
  | lib {known known' known'' : List Str} {a path text : Str} {xs ys : List SourcePart} {q r : Expanded} :
      a ++ ['.', 'y', 'u'] ∉ known → e.readLib (a ++ ['.', 'y', 'u']) = some (path, text) → Source m ys (unifyEol text) →
      Expands m e ((a ++ ['.', 'y', 'u']) :: known) ys q known' → Expands m e known' xs r known'' →
      Expands m e known (.lib a :: xs) (.module q r) known''
  | file {known known' known'' : List Str} {l path text : Str} {xs ys : List SourcePart} {q r : Expanded} :
      lowerStr (splitext (basename (e.unq l))).2 ≠ ['.', 'p', 'y'] → e.unq l ≠ e.inputFile → e.unq l ≠ ['<', 'n', 'u', 'l', 'l', '>'] →
      e.readLib (e.unq l) = some (path, text) → Source m ys (unifyEol text) →
      Expands m e (e.unq l :: known) ys q known' → Expands m e known' xs r known'' →
      Expands m e known (.file l :: xs) (.module q r) known''

/-- The pieces of a source text with those of what it imports. What a module brings stands between two marks, unless it
    is nothing. A module begins like a file. -/
inductive ModuleTrees : Bool → Expanded → List Node → Prop where
  | nil {f : Bool} : ModuleTrees f .nil []
  | chars {f : Bool} {w : Src} {i : Indent} {r : Expanded} {ns : List Node} : Indented f w.txt i → ModuleTrees false r ns →
      ModuleTrees f (.chars w.txt r) (.plain w i false :: ns)
  | piece {f : Bool} {x : ExprText} {n : Node} {r : Expanded} {ns : List Node} : TextTrees false x [n] → ModuleTrees false r ns →
      ModuleTrees f (.piece x r) (n :: ns)
  | empty {f : Bool} {q r : Expanded} {ns : List Node} : ModuleTrees true q [] → ModuleTrees f r ns → ModuleTrees f (.module q r) ns
  | module {f : Bool} {q r : Expanded} {ms ns : List Node} : ModuleTrees true q ms → ms ≠ [] → ModuleTrees false r ns →
      ModuleTrees f (.module q r) (.importBegin :: (ms ++ .importEnd :: ns))

/-- Nothing but plain text, comments and definitions, here and in all that is imported. -/
def Expanded.Definitions : Expanded → Prop
  | .nil => True
  | .chars _ r => r.Definitions
  | .piece (.set _ _ .nil) r => r.Definitions
  | .piece (.macro _ _ _ .nil) r => r.Definitions
  | .piece (.comment .nil) r => r.Definitions
  | .piece _ _ => False
  | .module q r => q.Definitions ∧ r.Definitions

/-- A piece of plain text, a comment, a definition, or a mark. -/
inductive DefPiece : Node → Prop where
  | plain (w i c) : DefPiece (.plain w i c)
  | comment : DefPiece .comment
  | set (l x) : DefPiece (.set l x)
  | macro_ (a as b) : DefPiece (.macro a as b)
  | opens : DefPiece .importBegin
  | closes : DefPiece .importEnd

/-- Pieces the first of which is not plain text. -/
def NotPlainFirst (xs : List Node) : Prop := ∀ w i c ys, xs ≠ .plain w i c :: ys

/-- Pieces the last of which is plain text or a mark. -/
def EndsPlain (xs : List Node) : Prop :=
  ∃ ys y, xs = ys ++ [y] ∧ ((∃ w i c, y = .plain w i c) ∨ y = .importBegin ∨ y = .importEnd)

end Yupp
