import Verif.Model.Builtin
import Verif.Spec.Generate

/-!
# `$define` and `$__EOL__` of the library, C93
-/

namespace Yupp.Spec

/-- The tree of `($set define \sig.\body.($join ($split [($unq "#define") ($sig) ($body)] __EOL__),, \($__EOL__)))`,
    locations left open. -/
inductive DefineFn : Node → Prop
  | mk {n p q j c u w p' q' k k' b1 b2 bs : Src} {l1 l2 l3 l4 l5 l6 : Option Loc} :
      n.txt = lit "define" → p.txt = lit "sig" → q.txt = lit "body" → j.txt = lit "join" → c.txt = lit "split" → u.txt = lit "unq" →
      w.txt = lit "\"#define\"" → p'.txt = lit "sig" → q'.txt = lit "body" → k.txt = lit "__EOL__" → k'.txt = lit "__EOL__" →
      b1.txt = [' '] → b2.txt = [' '] → bs.txt = [' ', '\\'] →
      DefineFn (.set (.one n) (.lambda [([], p, none), ([], q, none)]
        (.apply (.var false [] j)
          [.apply (.var false [] c)
            [.text [.apply (.var false [] u) [.str w] [] l1, .plain b1 .none false, .apply (.var false [] p') [] [] l2, .plain b2 .none false,
              .apply (.var false [] q') [] [] l3], .var false [] k] [] l4,
           .text [.plain bs .no false, .apply (.var false [] k') [] [] l5]] [] l6)))

/-- The tree of `($set __EOL__ EOL ? ($not ($isatom EOL)) | ,,` line break `)`. -/
inductive EndOfLine : Node → Prop
  | mk {n o i a b c : Src} {l1 l2 : Option Loc} {ind : Indent} : n.txt = lit "__EOL__" → o.txt = lit "not" → i.txt = lit "isatom" →
      a.txt = lit "EOL" → b.txt = lit "EOL" → c.txt = ['\n'] →
      EndOfLine (.set (.one n) (.cond (.apply (.var false [] o) [.apply (.var false [] i) [.var false [] a] [] l1] [] l2) (.var false [] b)
        (.text [.plain c ind false])))

/-- The text before it is cut into lines: `#define`, what is defined, what it stands for. -/
def directive (cfg : Config) (sig body : Str) : Str := lit "#define" ++ ' ' :: (reindent cfg [] sig ++ ' ' :: reindent cfg [] body)

end Yupp.Spec
