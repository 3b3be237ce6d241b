import Verif.Props.Config
import Verif.Lemmas.Path
/-!
# C72 — Where libraries are looked for
-/

namespace Yupp

open Spec

theorem libDirs_places (input : Option Str) (dirs : List Str) (lib name : Str) :
    name :: (libDirs input dirs lib).map (pathJoin · name) = places72 input dirs lib name := by
  unfold libDirs places72
  cases input with
  | none => simp
  | some i =>
    cases i with
    | nil => simp
    | cons c t => simp

theorem tryDirs_found {fs : Fs} {lib p : Str} {f : File} {ds : List Str} {last : Str} (h : fs (tryDirs fs lib ds last) = some f)
    (hp : tryDirs fs lib ds last = p) (hl : fs last = none) : FirstFile fs (ds.map (pathJoin · lib)) p f := by
  induction ds generalizing last with
  | nil =>
    unfold tryDirs at h
    rw [hl] at h; cases h
  | cons d ds ih =>
    unfold tryDirs at h hp
    by_cases hd : (fs (pathJoin d lib)).isSome = true
    · rw [if_pos hd] at h hp
      subst hp
      exact ⟨[], ds.map (pathJoin · lib), rfl, nofun, h⟩
    · rw [if_neg hd] at h hp
      have hn : fs (pathJoin d lib) = none := by simpa using hd
      obtain ⟨b, a, h1, h2, h3⟩ := ih h hp hn
      refine ⟨pathJoin d lib :: b, a, by simp [h1], ?_, h3⟩
      intro q hq
      rcases List.mem_cons.1 hq with rfl | hq
      · exact hn
      · exact h2 q hq

theorem tryDirs_first {fs : Fs} {lib p : Str} {f : File} {ds : List Str} {last : Str} (h : FirstFile fs (ds.map (pathJoin · lib)) p f) :
    tryDirs fs lib ds last = p := by
  obtain ⟨b, a, h1, h2, h3⟩ := h
  induction ds generalizing b last with
  | nil => simp at h1
  | cons d ds ih =>
    unfold tryDirs
    cases b with
    | nil =>
      simp only [List.map_cons, List.nil_append, List.cons.injEq] at h1
      rw [h1.1, if_pos (by rw [h3]; rfl)]
    | cons q b =>
      simp only [List.map_cons, List.cons_append, List.cons.injEq] at h1
      rw [h1.1, if_neg (by rw [h2 q (by simp)]; simp)]
      exact ih _ h1.2 fun q hq => h2 q (by simp [hq])

theorem tryDirs_none {fs : Fs} {lib : Str} {ds : List Str} {last : Str} (hl : fs last = none)
    (h : ∀ q ∈ ds.map (pathJoin · lib), fs q = none) : fs (tryDirs fs lib ds last) = none := by
  induction ds generalizing last with
  | nil => exact hl
  | cons d ds ih =>
    unfold tryDirs
    have hd : fs (pathJoin d lib) = none := h _ (by simp)
    rw [if_neg (by rw [hd]; simp)]
    exact ih hd fun q hq => h q (by simp only [List.map_cons, List.mem_cons]; exact .inr hq)

theorem libPath_first {fs : Fs} {ds : List Str} {lib p : Str} {f : File} :
    (libPath fs ds lib = p ∧ fs p = some f) ↔ FirstFile fs (lib :: ds.map (pathJoin · lib)) p f := by
  unfold libPath
  cases hl : fs lib with
  | some g =>
    simp only [Option.isSome_some, if_true]
    constructor
    · rintro ⟨rfl, h⟩
      exact ⟨[], _, rfl, nofun, h⟩
    · rintro ⟨b, a, h1, h2, h3⟩
      cases b with
      | nil =>
        simp only [List.nil_append, List.cons.injEq] at h1
        exact ⟨h1.1, h3⟩
      | cons q b =>
        simp only [List.cons_append, List.cons.injEq] at h1
        have := h2 q (by simp)
        rw [← h1.1, hl] at this
        cases this
  | none =>
    simp only [Option.isSome_none, Bool.false_eq_true, if_false]
    constructor
    · rintro ⟨rfl, h⟩
      obtain ⟨b, a, h1, h2, h3⟩ := tryDirs_found h rfl hl
      refine ⟨lib :: b, a, by rw [h1]; rfl, ?_, h3⟩
      intro q hq
      rcases List.mem_cons.1 hq with rfl | hq
      · exact hl
      · exact h2 q hq
    · rintro ⟨b, a, h1, h2, h3⟩
      cases b with
      | nil =>
        simp only [List.nil_append, List.cons.injEq] at h1
        rw [← h1.1, hl] at h3; cases h3
      | cons q b =>
        simp only [List.cons_append, List.cons.injEq] at h1
        exact ⟨tryDirs_first ⟨b, a, h1.2, fun q hq => h2 q (by simp [hq]), h3⟩, h3⟩

/-- **C72**. The library is the file at the first of the places where there is one. -/
theorem C72_first (fs : Fs) (input : Option Str) (dirs : List Str) (lib name p txt : Str) :
    readLibrary fs (libDirs input dirs lib) name = some (p, txt) ↔
      ∃ f, FirstFile fs (places72 input dirs lib name) p f ∧ f.content = txt := by
  rw [← libDirs_places]
  unfold readLibrary
  constructor
  · intro h
    cases hf : fs (libPath fs (libDirs input dirs lib) name) with
    | none => rw [hf] at h; cases h
    | some f =>
      rw [hf] at h
      simp only [Option.map_some, Option.some.injEq, Prod.mk.injEq] at h
      exact ⟨f, libPath_first.1 ⟨h.1, h.1 ▸ hf⟩, h.2⟩
  · rintro ⟨f, h, rfl⟩
    obtain ⟨h1, h2⟩ := libPath_first.2 h
    rw [h1, h2]
    rfl

/-- **C72**. The import fails only if there is no such file at any of them. -/
theorem C72_missing (fs : Fs) (input : Option Str) (dirs : List Str) (lib name : Str) :
    readLibrary fs (libDirs input dirs lib) name = none ↔ ∀ q ∈ places72 input dirs lib name, fs q = none := by
  rw [← libDirs_places]
  unfold readLibrary
  rw [Option.map_eq_none_iff]
  constructor
  · intro h
    apply Classical.byContradiction
    intro hn
    have : ∃ p f, FirstFile fs (name :: (libDirs input dirs lib).map (pathJoin · name)) p f := by
      revert hn
      generalize name :: (libDirs input dirs lib).map (pathJoin · name) = ps
      intro hn
      induction ps with
      | nil => exact absurd nofun hn
      | cons q qs ih =>
        cases hq : fs q with
        | some f => exact ⟨q, f, [], qs, rfl, nofun, hq⟩
        | none =>
          have : ¬ ∀ q ∈ qs, fs q = none := fun h' => hn fun x hx => by
            rcases List.mem_cons.1 hx with rfl | hx
            · exact hq
            · exact h' x hx
          obtain ⟨p, f, b, a, h1, h2, h3⟩ := ih this
          refine ⟨p, f, q :: b, a, by rw [h1]; rfl, ?_, h3⟩
          intro x hx
          rcases List.mem_cons.1 hx with rfl | hx
          · exact hq
          · exact h2 x hx
    obtain ⟨p, f, hp⟩ := this
    obtain ⟨h1, h2⟩ := libPath_first.2 hp
    rw [h1, h2] at h
    cases h
  · intro h
    have hn : fs name = none := h name (by simp)
    unfold libPath
    rw [hn]
    exact tryDirs_none hn fun q hq => h q (by simp only [List.mem_cons]; exact .inr hq)

theorem rstripSlash_end {d : Str} (hd : d.getLast? ≠ some '/') : rstripSlash (d ++ ['/']) = d := by
  unfold rstripSlash
  rw [List.reverse_append]
  show (List.dropWhile (· == '/') ('/' :: d.reverse)).reverse = d
  rw [List.dropWhile_cons_of_pos rfl]
  cases hr : d.reverse with
  | nil =>
    have : d = [] := by simpa using hr
    rw [this]; rfl
  | cons c t =>
    rw [List.dropWhile_cons_of_neg, ← hr, List.reverse_reverse]
    intro hc
    apply hd
    rw [← List.head?_reverse, hr]
    simpa using hc

/-- **C72**. A relative name is looked for in the directory `d` of an input file `d/base`. -/
theorem C72_beside {d base name lib : Str} {dirs : List Str} (hd : d ≠ []) (hl : d.getLast? ≠ some '/') (hb : '/' ∉ base)
    (hn : startsWith name ['/'] = false) :
    places72 (some (d ++ '/' :: base)) dirs lib name =
      name :: (d ++ '/' :: name) :: (dirs.map (pathJoin · name) ++ [pathJoin lib name]) := by
  unfold places72
  have h1 : dirname (d ++ '/' :: base) = d := by
    unfold dirname dirPart
    rw [splitLast_append hb]
    show (if (d ++ ['/']).all (· == '/') = true then _ else _) = d
    rw [if_neg, rstripSlash_end hl]
    intro h
    rw [List.all_append, Bool.and_eq_true, List.all_eq_true] at h
    apply hl
    cases hg : d.getLast? with
    | none => exact absurd (List.getLast?_eq_none_iff.1 hg) hd
    | some c => rw [beq_iff_eq.1 (h.1 c (List.mem_of_getLast? hg))]
  have h2 : pathJoin d name = d ++ '/' :: name := by
    unfold pathJoin
    rw [hn]
    cases d with
    | nil => exact absurd rfl hd
    | cons c t =>
      have : ((c :: t).isEmpty || (c :: t).getLast? == some '/') = false := by
        simpa using hl
      rw [this]
      simp
  simp only [h1, h2]
  rw [if_neg (by simp)]
  rfl

/-- **C72**. For an input file named without a directory only the working directory is added, once more. -/
theorem C72_beside_here {base name lib : Str} {dirs : List Str} (h0 : base ≠ []) (hb : '/' ∉ base)
    (hn : startsWith name ['/'] = false) :
    places72 (some base) dirs lib name = name :: name :: (dirs.map (pathJoin · name) ++ [pathJoin lib name]) := by
  unfold places72
  have h1 : dirname base = [] := by
    unfold dirname dirPart
    rw [splitLast_none.2 hb]
    rfl
  have h2 : pathJoin [] name = name := by
    unfold pathJoin
    rw [hn]
    rfl
  simp only [h1, h2]
  rw [if_neg h0]
  rfl

/-- **C72**. A name from the root means that file only. -/
theorem C72_absolute (fs : Fs) (input : Option Str) (dirs : List Str) (lib : Str) {name : Str} (hn : startsWith name ['/'] = true) :
    readLibrary fs (libDirs input dirs lib) name = (fs name).map fun f => (name, f.content) := by
  have hj : ∀ d, pathJoin d name = name := fun d => by unfold pathJoin; rw [hn]; rfl
  have hp : ∀ q ∈ places72 input dirs lib name, q = name := by
    intro q hq
    rw [← libDirs_places] at hq
    simp only [hj, List.mem_cons, List.mem_map] at hq
    rcases hq with rfl | ⟨_, _, rfl⟩ <;> rfl
  cases hf : fs name with
  | some f =>
    rw [(C72_first ..).2 ⟨f, ⟨[], _, rfl, nofun, hf⟩, rfl⟩]
    rfl
  | none =>
    rw [(C72_missing ..).2 fun q hq => by rw [hp q hq]; exact hf]
    rfl

/-- **C72**, what surprises: a file of that name in the working directory comes before the one beside the source. -/
theorem C72_working_directory_first {fs : Fs} {name : Str} {f : File} (h : fs name = some f) (input : Option Str) (dirs : List Str)
    (lib : Str) : readLibrary fs (libDirs input dirs lib) name = some (name, f.content) :=
  (C72_first ..).2 ⟨f, ⟨[], _, rfl, nofun, h⟩, rfl⟩

/-- **C72**. The text that is parsed for an import is the text of that file, its line ends unified; and its path is what is
    told of the place. -/
theorem C72_parsed {e : PEnv} {fs : Fs} {input : Option Str} {dirs : List Str} {lib name key : Str} {once : Bool} {s s' : PSt}
    (he : e.readLib = readLibrary fs (libDirs input dirs lib)) (hs : once = true → s.world.find name = none)
    (h : importSource e name once s = .ok (key, s')) :
    key = name ∧ ∃ p f, FirstFile fs (places72 input dirs lib name) p f ∧
      s'.world.find name = some (.path (some p), unifyEol f.content) := by
  unfold importSource at h
  have : (once && (s.world.find name).isSome) = false := by
    cases once with
    | false => rfl
    | true => rw [hs rfl]; rfl
  rw [this, he] at h
  simp only [Bool.false_eq_true, if_false] at h
  cases hr : readLibrary fs (libDirs input dirs lib) name with
  | none => rw [hr] at h; cases h
  | some r =>
    obtain ⟨p, txt⟩ := r
    rw [hr] at h
    obtain ⟨f, hf, rfl⟩ := (C72_first ..).1 hr
    cases h
    exact ⟨rfl, p, f, hf, by simp [World.find]⟩

/-- **C72**. An import does not fail while the file is at one of the places. -/
theorem C72_no_error {e : PEnv} {fs : Fs} {input : Option Str} {dirs : List Str} {lib name : Str} (once : Bool) (s : PSt)
    (he : e.readLib = readLibrary fs (libDirs input dirs lib)) :
    (∃ q ∈ places72 input dirs lib name, fs q ≠ none) → ∃ key s', importSource e name once s = .ok (key, s') := by
  rintro ⟨q, hq, hf⟩
  unfold importSource
  rw [he]
  cases hr : readLibrary fs (libDirs input dirs lib) name with
  | none => exact absurd ((C72_missing ..).1 hr q hq) hf
  | some r =>
    split
    · exact ⟨_, _, rfl⟩
    · exact ⟨_, _, rfl⟩

namespace LibraryExample

def fs : Fs := fun n => if n = lit "src/defs.yu" then some { content := lit "a" } else
  if n = lit "/yupp/lib/defs.yu" then some { content := lit "b" } else none

/-- `src/main.yu-c` imports `defs.yu`: the one beside it, not the one of the library. -/
example : readLibrary fs (libDirs (some (lit "src/main.yu-c")) [] (lit "/yupp/lib")) (lit "defs.yu") =
    some (lit "src/defs.yu", lit "a") :=
  (C72_first ..).2 ⟨{ content := lit "a" }, by
    rw [show lit "src/main.yu-c" = lit "src" ++ '/' :: lit "main.yu-c" from rfl,
      C72_beside (by decide) (by decide) (by decide) (by decide)]
    exact ⟨[lit "defs.yu"], _, rfl, fun q hq => by rw [List.mem_singleton.1 hq]; rfl, rfl⟩, rfl⟩

end LibraryExample

end Yupp
