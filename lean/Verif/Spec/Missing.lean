import Verif.Spec.Modules
/-!
# Imports that cannot be satisfied, for C105

A text *lacks* a file if reading it from its beginning comes to an import of a file that is not found. The import may
stand in the text itself, behind plain text, pieces of the grammar and imports that are satisfied, or in a file imported,
at any depth. Nothing is required of what follows the name.
-/

namespace Yupp

/-- An import at the beginning of a text, and what follows it. -/
inductive ImportAt (m : Mode) : SourcePart → Str → Str → Prop where
  | lib {a g1 g2 s s' : Str} : IsGap g1 → IsName a → IsGap g2 → Closing ['i', 'm', 'p', 'o', 'r', 't'] s s' →
      ImportAt m (.lib a) ('(' :: '$' :: 'i' :: 'm' :: 'p' :: 'o' :: 'r' :: 't' :: (g1 ++ (a ++ (g2 ++ s)))) s'
  | file {q : Char} {l g1 g2 s s' : Str} : IsGap g1 → QuoteMark q → TextLiteral m (q :: l) (g2 ++ s) → IsGap g2 →
      Closing ['i', 'm', 'p', 'o', 'r', 't'] s s' →
      ImportAt m (.file (q :: l)) ('(' :: '$' :: 'i' :: 'm' :: 'p' :: 'o' :: 'r' :: 't' :: (g1 ++ (q :: l ++ (g2 ++ s)))) s'

/-- `Lacks m e b known s`: reading `s` comes to an import that is not satisfied if the files `known` were read before. Plain
    text may come first only if `b`, so that a run of plain text is never divided. -/
inductive Lacks (m : Mode) (e : PEnv) : Bool → List Str → Str → Prop where
  /-- plain text first -/
  | chars {known : List Str} {w s : Str} : w ≠ [] → PlainRun m w s → Lacks m e false known s → Lacks m e true known (w ++ s)
  /-- a piece of the grammar first -/
  | piece {b : Bool} {known : List Str} {x : ExprText} {s s' : Str} : OnePiece m x s s' → Lacks m e true known s' → Lacks m e b known s
  /-- an import first that is satisfied -/
  | behind {b : Bool} {known known' : List Str} {p : SourcePart} {r : Expanded} {s s' : Str} : ImportAt m p s s' →
      Expands m e known [p] r known' → Lacks m e true known' s' → Lacks m e b known s
  /-- a library that is not found -/
  | lib {b : Bool} {known : List Str} {a g s : Str} : IsGap g → IsName a → NoName s → a ++ ['.', 'y', 'u'] ∉ known →
      e.readLib (a ++ ['.', 'y', 'u']) = none →
      Lacks m e b known ('(' :: '$' :: 'i' :: 'm' :: 'p' :: 'o' :: 'r' :: 't' :: (g ++ (a ++ s)))
  /-- a file that is not found -/
  | file {b : Bool} {known : List Str} {q : Char} {l g s : Str} : IsGap g → QuoteMark q → TextLiteral m (q :: l) s →
      lowerStr (splitext (basename (e.unq (q :: l)))).2 ≠ ['.', 'p', 'y'] → e.readLib (e.unq (q :: l)) = none →
      Lacks m e b known ('(' :: '$' :: 'i' :: 'm' :: 'p' :: 'o' :: 'r' :: 't' :: (g ++ (q :: l ++ s)))
  /-- a Python script that cannot be loaded -/
  | script {b : Bool} {known : List Str} {q : Char} {l g s : Str} : IsGap g → QuoteMark q → TextLiteral m (q :: l) s →
      lowerStr (splitext (basename (e.unq (q :: l)))).2 = ['.', 'p', 'y'] → e.loadScript (e.unq (q :: l)) = false →
      Lacks m e b known ('(' :: '$' :: 'i' :: 'm' :: 'p' :: 'o' :: 'r' :: 't' :: (g ++ (q :: l ++ s)))
  /-- a library that is found, but lacks a file -/
  | inLib {b : Bool} {known : List Str} {a g s path text : Str} : IsGap g → IsName a → NoName s → a ++ ['.', 'y', 'u'] ∉ known →
      e.readLib (a ++ ['.', 'y', 'u']) = some (path, text) → Lacks m e true ((a ++ ['.', 'y', 'u']) :: known) (unifyEol text) →
      Lacks m e b known ('(' :: '$' :: 'i' :: 'm' :: 'p' :: 'o' :: 'r' :: 't' :: (g ++ (a ++ s)))
  /-- a file that is found, but lacks a file -/
  | inFile {b : Bool} {known : List Str} {q : Char} {l g s path text : Str} : IsGap g → QuoteMark q → TextLiteral m (q :: l) s →
      lowerStr (splitext (basename (e.unq (q :: l)))).2 ≠ ['.', 'p', 'y'] → e.unq (q :: l) ≠ e.inputFile →
      e.unq (q :: l) ≠ ['<', 'n', 'u', 'l', 'l', '>'] → e.readLib (e.unq (q :: l)) = some (path, text) →
      Lacks m e true (e.unq (q :: l) :: known) (unifyEol text) →
      Lacks m e b known ('(' :: '$' :: 'i' :: 'm' :: 'p' :: 'o' :: 'r' :: 't' :: (g ++ (q :: l ++ s)))

end Yupp
