import Verif.Model.Editor
import Verif.Spec.Provenance
import Verif.Spec.OutputName
/-!
# Where "Go to Origin" leads

Specification for C66. The command is given again and again. From a character of a generated file it leads to the outermost
reference of the character's fragment, then further in, and from the innermost back to the character. References to files
that are not found are left out.
-/

namespace Yupp.Spec

/-- The character belongs to the first fragment that is listed. -/
def InFirstFragment (r : Res) (pos : Int) : Prop :=
  (r.browse.filter (fun e => decide (e.1 ≤ posMap r.offset pos))).length = 1

instance (r : Res) (pos : Int) : Decidable (InFirstFragment r pos) := inferInstanceAs (Decidable (_ = _))

/-- The places the command should lead to: the references; a single one in a file is taken at the character itself and not at
    the beginning of the fragment. In the program this fails for the first fragment and for fragments at position 0. -/
def places (r : Res) (pos : Int) : List (Str × Int) :=
  match references r pos, resolve r pos with
  | [(f, p)], some (_, _, d) => if 0 < p ∧ ¬ InFirstFragment r pos then [(f, p + d)] else [(f, p.natAbs)]
  | refs, _ => refs.map fun x => (x.1, (x.2.natAbs : Int))

/-- The stops: the places in files that are found, under the names they are found by. -/
def stops (find : Str → Str) (r : Res) (pos : Int) : List (Str × Int) :=
  ((places r pos).map fun x => (find x.1, x.2)).filter fun x => !x.1.isEmpty

/-- Give the command `n` times. -/
def press (dk : Disk) : Nat → Editor → Option Editor
  | 0, ed => some ed
  | n + 1, ed => (gotoOrigin dk ed).bind (press dk n)

/-- The place of the caret. -/
def place (ed : Editor) : Str × Int := (ed.file, ed.caret ed.file)

/-- What the plug-in finds for the name of a file: what it found before, the file of this name, or a file of this name or of
    this base name in the folders. -/
def find (dk : Disk) (d : FData) (fn : Str) : Str := (searchFile dk dk.folders d.paths fn).1

/-- How a file is found: under the name it was found by before; else as the file of this name; else in the first of the folders
    that has a file of this name; else in the first that has one of this base name; else not at all. -/
inductive Finds (dk : Disk) (paths : List (Str × Str)) (fn : Str) : Str → Prop
  | before {p} : paths.lookup fn = some p → p ≠ [] → Finds dk paths fn p
  | itself : (∀ p, paths.lookup fn = some p → p = []) → dk.isFile fn = true → Finds dk paths fn (dk.abspath fn)
  | byName {ds d ds'} : (∀ p, paths.lookup fn = some p → p = []) → dk.isFile fn = false → dk.folders = ds ++ d :: ds' →
      dk.isFile (dk.join d fn) = true → (∀ d' ∈ ds, dk.isFile (dk.join d' fn) = false) → Finds dk paths fn (dk.join d fn)
  | byBase {ds d ds'} : (∀ p, paths.lookup fn = some p → p = []) → dk.isFile fn = false →
      (∀ d' ∈ dk.folders, dk.isFile (dk.join d' fn) = false) → dk.folders = ds ++ d :: ds' →
      dk.isFile (dk.join d (basename fn)) = true → (∀ d' ∈ ds, dk.isFile (dk.join d' (basename fn)) = false) →
      Finds dk paths fn (dk.join d (basename fn))
  | nowhere : (∀ p, paths.lookup fn = some p → p = []) → dk.isFile fn = false →
      (∀ d' ∈ dk.folders, dk.isFile (dk.join d' fn) = false) → (∀ d' ∈ dk.folders, dk.isFile (dk.join d' (basename fn)) = false) →
      Finds dk paths fn []

/-- Base names of sources the plug-in finds again from the name of the generated file: `s.x`, `s.yu-x` (in small letters) and
    `s.yu`; not `s` and `s.x.yu`. The name of a generated file is not taken apart if it looks like one that is generated in
    another way. -/
inductive Recovered : Str → Prop
  | plain {s x} : HasStem s → '.' ∉ x → ¬ OwnExt x → x ≠ lit "yugen" → Recovered (s ++ '.' :: x)
  | yuExt {s x} : HasStem s → x ≠ [] → '.' ∉ x → x ≠ lit "yugen" → (∀ t, HasStem t → s ≠ t ++ lit ".yugen") →
      Recovered (s ++ lit ".yu-" ++ x)
  | yu {s} : HasStem s → NoExt s → Recovered (s ++ lit ".yu")

end Yupp.Spec
