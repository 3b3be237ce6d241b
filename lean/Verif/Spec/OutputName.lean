import Verif.Base.PyStr
/-!
# Names of input and output files

Specification for C36: the documented table of names. Nothing of the model is used; the names are base names,
without a directory.
-/

namespace Yupp

/-- There is something besides dots: `.bashrc` and `..` have no stem in front of their last dot. -/
def HasStem (s : Str) : Prop := ∃ c ∈ s, c ≠ '.'

/-- The name has no extension: there is no last dot with a stem in front of it. -/
def NoExt (s : Str) : Prop := ∀ p x, s = p ++ '.' :: x → HasStem p → '.' ∈ x

/-- `yu` in capital or small letters. -/
def YuWord (w : Str) : Prop := w.map Char.toLower = ['y', 'u']

/-- The extensions the translator takes for its own: `yu` (a line end may follow it) and `yu-x`. -/
def OwnExt (x : Str) : Prop := ∃ w, YuWord w ∧ (x = w ∨ x = w ++ ['\n'] ∨ ∃ y, y ≠ [] ∧ x = w ++ '-' :: y)

/-- Kinds of input names; `w` is the way `yu` is written, `e` the line end behind it, if any. -/
inductive NameKind where
  | bare                       -- `s`
  | plain                      -- `s.x`
  | yuExt (w : Str)            -- `s.yu-x`
  | yu (w e : Str)             -- `s.yu`
  | inner (w e : Str)          -- `s.x.yu`

/-- What may stand behind `yu`. -/
def LineEndOrNone (e : Str) : Prop := e = [] ∨ e = ['\n']

/-- `Makes k a o`: `a` is a name of kind `k`, and its output is called `o`. -/
inductive Makes : NameKind → Str → Str → Prop where
  | bare {s : Str} : NoExt s → Makes .bare s (s ++ lit ".yugen")
  | plain {s x : Str} : HasStem s → '.' ∉ x → ¬ OwnExt x → Makes .plain (s ++ '.' :: x) (s ++ lit ".yugen" ++ '.' :: x)
  | yuExt {s w x : Str} : HasStem s → YuWord w → x ≠ [] → '.' ∉ x →
      Makes (.yuExt w) (s ++ '.' :: (w ++ '-' :: x)) (s ++ '.' :: x)
  | yu {s w e : Str} : HasStem s → NoExt s → YuWord w → LineEndOrNone e →
      Makes (.yu w e) (s ++ '.' :: (w ++ e)) (s ++ lit ".yugen")
  | inner {s x w e : Str} : HasStem s → '.' ∉ x → YuWord w → LineEndOrNone e →
      Makes (.inner w e) (s ++ '.' :: x ++ '.' :: (w ++ e)) (s ++ '.' :: x)

end Yupp
