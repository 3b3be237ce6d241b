import Verif.Lemmas.Path
import Verif.Lemmas.Eval
import Verif.Props.OutputName
import Verif.Props.Call
import Verif.Props.Feature
import Verif.Spec.Start
/-!
# C81: what a program is told of its translation
-/

namespace Yupp
open Spec

theorem inDir_basename {p b : Str} (h : InDir p b) : basename p = b := by
  obtain ⟨hb, rfl | ⟨d, rfl⟩⟩ := h
  · exact basename_dir (d := []) (.inl rfl) hb
  · have := basename_dir (d := d ++ ['/']) (.inr ⟨d, rfl⟩) hb
    simpa using this

theorem inDir_self (p : Str) : InDir p (basename p) := by
  refine ⟨basename_noslash p, ?_⟩
  have h := dirPart_basename p
  rcases isDir_dirPart p with hd | ⟨a, ha⟩
  · left; rw [hd] at h; exact h.symm
  · right; rw [ha] at h; exact ⟨a, by simpa using h.symm⟩

theorem given_some {p : Str} (h : p ≠ []) : given (some p) = some p := by
  cases p with
  | nil => exact absurd rfl h
  | cons _ _ => rfl

/-- Every translation knows its source and its output by some name. -/
theorem called_total (stream : Str) (p : Option Str) : ∃ b, Called stream p b := by
  cases p with
  | none => exact ⟨_, .stream⟩
  | some p =>
    by_cases h : p = []
    · subst h; exact ⟨_, .empty⟩
    · exact ⟨_, .file h (inDir_self p)⟩

theorem called_input {upper : Str → Str} {k : SkipOption} {i o : Option Str} {b : Str} (h : Called (lit "<stdin>") i b) :
    (start upper k i o).inputFile = b := by
  cases h with
  | file hp hb => unfold start; simp only [given_some hp]; exact inDir_basename hb
  | empty => rfl
  | stream => rfl

theorem called_output {upper : Str → Str} {k : SkipOption} {i o : Option Str} {b : Str} (h : Called (lit "<stdout>") o b) :
    (start upper k i o).outputFile = b := by
  cases h with
  | file hp hb => unfold start; simp only [given_some hp]; exact inDir_basename hb
  | empty => rfl
  | stream => rfl

theorem called_noslash {stream : Str} (hs : '/' ∉ stream) {p : Option Str} {b : Str} (h : Called stream p b) : '/' ∉ b := by
  cases h with
  | file _ hb => exact hb.1
  | empty => exact hs
  | stream => exact hs

theorem splitext_base {b : Str} (h : '/' ∉ b) : splitext b = splitextBase b := by
  have := splitext_dir (d := []) (.inl rfl) h
  simpa using this

theorem stdout_noslash : '/' ∉ lit "<stdout>" := by decide +kernel
theorem stdin_noslash : '/' ∉ lit "<stdin>" := by decide +kernel

/-- **C81**. The output counts as Python exactly if the extension of its name is `py`, in whatever letters. -/
theorem C81_python (upper : Str → Str) (k : SkipOption) (i o : Option Str) {b : Str} (h : Called (lit "<stdout>") o b) :
    (start upper k i o).outputPython = true ↔ PythonName b := by
  have hb := called_output (upper := upper) (k := k) (i := i) h
  have hn := called_noslash stdout_noslash h
  have e : (start upper k i o).outputPython = (lowerStr (splitext (start upper k i o).outputFile).2 == lit ".py") := rfl
  rw [e, hb, splitext_base hn, beq_iff_eq]
  have hl : lit ".py" = ['.', 'p', 'y'] := by decide
  rw [hl]
  constructor
  · intro h2
    by_cases hx : NoExt b
    · rw [splitextBase_noExt hx] at h2; simp [lowerStr] at h2
    · unfold splitextBase at h2
      cases hs : splitLast '.' b with
      | none => rw [hs] at h2; simp [lowerStr] at h2
      | some q =>
        obtain ⟨s, x⟩ := q
        rw [hs] at h2
        simp only [] at h2
        split at h2
        · simp [lowerStr] at h2
        · rename_i ha
          refine ⟨s, x, ((splitLast_some hs).1).symm ▸ rfl, ?_, ?_⟩
          · rw [all_dots] at ha
            exact Classical.not_not.1 ha
          · simp only [lowerStr, List.map_cons, List.cons.injEq] at h2
            exact h2.2
  · rintro ⟨s, x, rfl, hs, hx⟩
    have hd : '.' ∉ x := by
      intro hm
      have : Char.toLower '.' ∈ x.map Char.toLower := List.mem_map_of_mem hm
      rw [hx] at this
      revert this; decide
    rw [splitextBase_ext' hs hd]
    simp only [lowerStr, List.map_cons, hx]
    decide

/-- **C81**. Comments are skipped as the option says; `auto` goes by the name of the output. -/
theorem C81_skip (upper : Str → Str) (k : SkipOption) (i o : Option Str) {b : Str} {w : Skip} (h : Called (lit "<stdout>") o b) :
    (start upper k i o).skip = w ↔ Skips k b w := by
  have hp := C81_python upper k i o h
  cases k with
  | none => exact ⟨fun h => h ▸ .none, fun h => by cases h; rfl⟩
  | c => exact ⟨fun h => h ▸ .c, fun h => by cases h; rfl⟩
  | python => exact ⟨fun h => h ▸ .python, fun h => by cases h; rfl⟩
  | auto =>
    have e : (start upper .auto i o).skip = if (start upper .auto i o).outputPython then .python else .c := rfl
    rw [e]
    by_cases hq : PythonName b
    · rw [hp.2 hq]
      exact ⟨fun h => h ▸ .autoPython hq, fun h => by cases h with | autoPython _ => rfl | autoC hn => exact absurd hq hn⟩
    · rw [if_neg (fun h => hq (hp.1 h))]
      exact ⟨fun h => h ▸ .autoC hq, fun h => by cases h with | autoC _ => rfl | autoPython hn => exact absurd hn hq⟩

theorem module_eq {upper : Str → Str} (hu : ∀ t : Str, (∀ c ∈ t, c.toNat < 128) → upper t = t.map Char.toUpper)
    {k : SkipOption} {i o : Option Str} {m : Str} (h : ModuleName i m) : (start upper k i o).module = m := by
  cases h with
  | @file p b s hp hb hs ha =>
    have h1 : (start upper k (some p) o).module = upper ((splitext (basename p)).1.map fun c => if c = '-' then '_' else c) := by
      unfold start; simp only [given_some hp]
    rw [h1, inDir_basename hb, splitext_base hb.1]
    have h2 : (splitextBase b).1 = s := by
      cases hs with
      | ext h1 h2 => rw [splitextBase_ext' h1 h2]
      | none h1 => rw [splitextBase_noExt h1]
    rw [h2, hu, List.map_map]
    · apply List.map_congr_left
      intro c _
      simp only [Function.comp, moduleChar]
      split
      · decide
      · rfl
    · intro c hc
      simp only [List.mem_map] at hc
      obtain ⟨d, hd, rfl⟩ := hc
      split
      · decide
      · exact ha d hd
  | empty => rfl
  | stream => rfl

variable {e : EEnv} {x : BExt} {upper : Str → Str} {k : SkipOption} {i o : Option Str} {now : Str} {s : ESt}
  {l loc : Option Loc}

theorem tells_call (ht : Tells e x (start upper k i o) now) {f : Str}
    (hf : f ∈ [lit "__FILE__", lit "__OUTPUT_FILE__", lit "__MODULE_NAME__", lit "__TITLE__"]) (hu : Unbound f s)
    {args vs : List Node} {s1 : ESt} (ha : Args e args s vs s1) (hk : ∀ v ∈ vs, Known v) {v w : Node}
    (hc : tellCall x (start upper k i o) now s1.py f vs s1.seen = some (v, s1.seen)) (hr : Returned v w) :
    Evaluates e (fnCall f l loc args) s w s1 :=
  C68_known ⟨hu, ht.table _ f hf⟩ ha (ht.table _ f hf) hk (by rw [ht.call]; exact hc) hr

/-- **C81**. `($__FILE__)` is the name of the source, in quotes. -/
theorem C81_file (ht : Tells e x (start upper k i o) now) (hu : Unbound (lit "__FILE__") s) {b : Str}
    (hi : Called (lit "<stdin>") i b) : Evaluates e (fnCall (lit "__FILE__") l loc []) s (.pstr (inQuotes b)) s := by
  refine tells_call ht (by simp) hu (.nil s) (by simp) (v := .pstr (inQuotes b)) ?_ (.text (.pstr _))
  unfold tellCall
  simp only [if_true, called_input hi]
  rfl

/-- **C81**. `($__OUTPUT_FILE__)` is the name the program has set last, else that of the file it is translated to, in quotes. -/
theorem C81_output_file (ht : Tells e x (start upper k i o) now) (hu : Unbound (lit "__OUTPUT_FILE__") s) {b : Str}
    (ho : Called (lit "<stdout>") o b) :
    Evaluates e (fnCall (lit "__OUTPUT_FILE__") l loc []) s (.pstr (inQuotes (nameNow s b))) s := by
  refine tells_call ht (by simp) hu (.nil s) (by simp) (v := .pstr (inQuotes (nameNow s b))) ?_ (.text (.pstr _))
  unfold tellCall
  rw [if_neg (by decide +kernel), if_pos rfl]
  simp only [outputNow, called_output ho]
  unfold nameNow ESt.py
  cases s.outputFile <;> rfl

/-- **C81**. After `($set __OUTPUT_FILE__ expr)`, `($__OUTPUT_FILE__)` is the text of the value, in quotes. -/
theorem C81_set_told (ht : Tells e x (start upper k i o) now) {a : Src} {ast v : Node} {s1 : ESt} {t : Str}
    (ha : a.txt = lit "__OUTPUT_FILE__") (hv : Evaluates e ast s v s1) (hT : Template v t)
    (hu : Unbound (lit "__OUTPUT_FILE__") s1) :
    ∃ s2, Evaluates e (.set (.one a) ast) s .none s2 ∧
      Evaluates e (fnCall (lit "__OUTPUT_FILE__") l loc []) s2 (.pstr (inQuotes (e.pe.unq t))) s2 := by
  refine ⟨_, (C58_output_file e a ast v s s1 ha hv).1 t (.inl hT), ?_⟩
  obtain ⟨b, hb⟩ := called_total (lit "<stdout>") o
  exact C81_output_file ht (s := { s1 with outputFile := some (e.pe.unq t) }) hu hb

/-- **C81**. At the end of a program `($__OUTPUT_FILE__)` would tell which file is written: its path if the program has set one,
    else its last component. -/
theorem C81_tells_target {d out : Str} (ht : Tells e x (start upper k i (some d)) now) (hu : Unbound (lit "__OUTPUT_FILE__") s)
    (hd : d ≠ []) (hne : s.outputFile ≠ some []) (hc : Chosen s.outputFile d out) :
    ∃ w, Evaluates e (fnCall (lit "__OUTPUT_FILE__") l loc []) s (.pstr (inQuotes w)) s ∧
      ((s.outputFile = some out ∧ w = out) ∨ (s.outputFile = none ∧ out = d ∧ InDir d w)) := by
  have h := C81_output_file (l := l) (loc := loc) ht hu (.file hd (inDir_self d))
  refine ⟨_, h, ?_⟩
  cases hs : s.outputFile with
  | none => rw [hs] at hc; cases hc; right; simp only [nameNow, hs]; exact ⟨trivial, trivial, inDir_self d⟩
  | some f =>
    rw [hs] at hc hne
    cases hc with
    | empty => exact absurd rfl hne
    | named _ hf => left; simp only [nameNow, hs]; exact ⟨trivial, trivial⟩

/-- **C81**. `($__MODULE_NAME__)` is the module name of the source, as a text. -/
theorem C81_module (ht : Tells e x (start upper k i o) now)
    (hup : ∀ t : Str, (∀ c ∈ t, c.toNat < 128) → upper t = t.map Char.toUpper) (hu : Unbound (lit "__MODULE_NAME__") s) {m : Str}
    (hm : ModuleName i m) : Evaluates e (fnCall (lit "__MODULE_NAME__") l loc []) s (.pstr m) s := by
  refine tells_call ht (by simp) hu (.nil s) (by simp) (v := .atom ⟨m, none⟩) ?_ .atom
  unfold tellCall
  rw [if_neg (by decide +kernel), if_neg (by decide +kernel), if_pos rfl]
  simp only [module_eq hup hm]

theorem titleC_eq (o i t : Str) : title false o i t = titleC o i t := by
  have h : lit " was generated by yupp 1.2c1\n    out of " = lit " was generated by yupp 1.2c1\n" ++ lit "    out of " := by
    decide +kernel
  have h1 : lit " " = [' '] := by decide +kernel
  have h2 : lit "\n */" = lit "\n" ++ lit " */" := by decide +kernel
  unfold title titleC
  rw [h, h1, h2]
  simp only [Bool.false_eq_true, if_false, List.append_assoc]

theorem titlePython_eq (o i t : Str) : title true o i t = titlePython o i t := by
  have h : lit " was generated by yupp 1.2c1\n#  out of " = lit " was generated by yupp 1.2c1\n" ++ lit "#  out of " := by
    decide +kernel
  have h1 : lit " " = [' '] := by decide +kernel
  unfold title titlePython
  rw [h, h1]
  simp only [if_true, List.append_assoc]

/-- **C81**. `($__TITLE__)`, `($__TITLE__ dt)`: two lines that name the output and the source, as a comment of the language of the
    output; the time is there unless `dt` is false. -/
theorem C81_title (ht : Tells e x (start upper k i o) now) (hu : Unbound (lit "__TITLE__") s) {b c : Str}
    (ho : Called (lit "<stdout>") o b) (hi : Called (lit "<stdin>") i c) {args vs : List Node} {s1 : ESt} {w : Str}
    (ha : Args e args s vs s1) (hw : TimeAsked vs now w) :
    (PythonName b → Evaluates e (fnCall (lit "__TITLE__") l loc args) s (.pstr (titlePython (nameNow s1 b) c w)) s1) ∧
    (¬ PythonName b → Evaluates e (fnCall (lit "__TITLE__") l loc args) s (.pstr (titleC (nameNow s1 b) c w)) s1) := by
  have hk : ∀ v ∈ vs, Known v := by cases hw <;> simp_all
  have key : ∀ py : Bool, (start upper k i o).outputPython = py →
      Evaluates e (fnCall (lit "__TITLE__") l loc args) s
        (.pstr (if py then titlePython (nameNow s1 b) c w else titleC (nameNow s1 b) c w)) s1 := by
    intro py hpy
    refine tells_call ht (by simp) hu ha hk (v := .plain ⟨title py (nameNow s1 b) c w, none⟩ .no false) ?_ ?_
    · have hn : outputNow (start upper k i o) s1.py = nameNow s1 b := by
        simp only [outputNow, called_output ho]
        unfold nameNow ESt.py
        cases s1.outputFile <;> rfl
      unfold tellCall
      rw [if_neg (by decide +kernel), if_neg (by decide +kernel), if_neg (by decide +kernel), if_pos rfl]
      simp only [hpy, hn, called_input hi]
      cases hw with
      | default => rfl
      | off _ hf => simp only [(falsy_iff _).2 hf]; rfl
      | on _ hf =>
        rename_i d _
        have : truthy d = true := by
          cases h : truthy d with
          | true => rfl
          | false => exact absurd ((falsy_iff _).1 h) hf
        simp only [this]; rfl
    · have : (if py then titlePython (nameNow s1 b) c w else titleC (nameNow s1 b) c w) = title py (nameNow s1 b) c w := by
        cases py
        · exact (titleC_eq _ _ _).symm
        · exact (titlePython_eq _ _ _).symm
      rw [this]
      exact .text (.plain _ _ _)
  have hp := C81_python upper k i o ho
  constructor
  · intro h; exact key true (hp.2 h)
  · intro h
    have : (start upper k i o).outputPython = false := by
      cases hq : (start upper k i o).outputPython with
      | false => rfl
      | true => exact absurd (hp.1 hq) h
    exact key false this

theorem inside_sep {x y c : Char} (hx : c ≠ x) (hy : c ≠ y) : ∀ {a b : Str}, Inside [x, y] (a ++ c :: b) →
    Inside [x, y] a ∨ Inside [x, y] b
  | [], b, ⟨l, r, h⟩ => by
    cases l with
    | nil => simp at h; exact absurd h.1 hx
    | cons d l => simp at h; exact .inr ⟨l, r, by simp [h.2]⟩
  | d :: a, b, ⟨l, r, h⟩ => by
    cases l with
    | nil =>
      simp at h
      cases a with
      | nil => simp at h; exact absurd h.2.1 hy
      | cons z a => simp at h; exact .inl ⟨[], a, by simp [h.1, h.2.1]⟩
    | cons z l =>
      simp at h
      have hi : Inside [x, y] (a ++ c :: b) := ⟨l, r, by simp [h.2]⟩
      rcases inside_sep hx hy hi with ⟨l', r', h'⟩ | h'
      · exact .inl ⟨d :: l', r', by simp [h']⟩
      · exact .inr h'

theorem not_inside {x y : Char} {t : Str} (h : x ∉ t ∨ y ∉ t) : ¬ Inside [x, y] t := by
  rintro ⟨l, r, rfl⟩
  rcases h with h | h <;> simp at h

/-- **C81**. A title in C is one comment, if the names do not end it (names without directories cannot). -/
theorem C81_title_comment {o i t : Str} (ho : ¬ Inside (lit "*/") o) (hi : ¬ Inside (lit "*/") i) (ht : ¬ Inside (lit "*/") t) :
    ∃ body, titleC o i t = lit "/*" ++ body ++ lit "*/" ∧ ¬ Inside (lit "*/") body := by
  have h0 : lit "*/" = ['*', '/'] := by decide +kernel
  rw [h0] at ho hi ht ⊢
  refine ⟨[' '] ++ ' ' :: (o ++ ' ' :: (lit "was generated by yupp 1.2c1\n    out of" ++ ' ' :: (i ++ ' ' :: (t ++ '\n' :: [' '])))), ?_, ?_⟩
  · have h1 : lit "/*  " = lit "/*" ++ [' ', ' '] := by decide +kernel
    have h2 : lit " was generated by yupp 1.2c1\n" ++ lit "    out of " =
        ' ' :: (lit "was generated by yupp 1.2c1\n    out of" ++ [' ']) := by decide +kernel
    have h3 : lit "\n" ++ lit " */" = ['\n', ' ', '*', '/'] := by decide +kernel
    have h4 : lit " " = [' '] := by decide +kernel
    have e : titleC o i t = lit "/*  " ++ o ++ (lit " was generated by yupp 1.2c1\n" ++ lit "    out of ") ++ i ++ lit " " ++ t ++
        (lit "\n" ++ lit " */") := by
      unfold titleC
      simp only [List.append_assoc]
    rw [e, h1, h2, h3, h4]
    simp only [List.append_assoc, List.cons_append, List.nil_append]
  · intro h
    rcases inside_sep (by decide) (by decide) h with h | h
    · exact not_inside (.inl (by decide)) h
    rcases inside_sep (by decide) (by decide) h with h | h
    · exact ho h
    rcases inside_sep (by decide) (by decide) h with h | h
    · exact not_inside (.inl (by decide +kernel)) h
    rcases inside_sep (by decide) (by decide) h with h | h
    · exact hi h
    rcases inside_sep (by decide) (by decide) h with h | h
    · exact ht h
    · exact not_inside (.inl (by decide)) h

theorem C81_name_safe {stream : Str} (hs : '/' ∉ stream) {p : Option Str} {b : Str} (h : Called stream p b) : ¬ Inside (lit "*/") b := by
  have h0 : lit "*/" = ['*', '/'] := by decide +kernel
  rw [h0]
  exact not_inside (.inr (called_noslash hs h))

/-- **C81**. A title in Python is two comment lines, if there is no line end in the names. -/
theorem C81_title_lines {o i t : Str} (ho : '\n' ∉ o) (hi : '\n' ∉ i) (ht : '\n' ∉ t) :
    ∃ a b, titlePython o i t = '#' :: a ++ '\n' :: '#' :: b ∧ '\n' ∉ a ∧ '\n' ∉ b := by
  have h1 : lit "#  " = '#' :: [' ', ' '] := by decide +kernel
  have h2 : lit " was generated by yupp 1.2c1\n" = lit " was generated by yupp 1.2c1" ++ ['\n'] := by decide +kernel
  have h3 : lit "#  out of " = '#' :: lit "  out of " := by decide +kernel
  have h4 : lit " " = [' '] := by decide +kernel
  refine ⟨[' ', ' '] ++ o ++ lit " was generated by yupp 1.2c1", lit "  out of " ++ i ++ [' '] ++ t, ?_, ?_, ?_⟩
  · unfold titlePython
    rw [h1, h2, h3, h4]
    simp only [List.append_assoc, List.cons_append, List.nil_append]
  · have : '\n' ∉ lit " was generated by yupp 1.2c1" := by decide +kernel
    simp [ho, this]
  · have : '\n' ∉ lit "  out of " := by decide +kernel
    simp [hi, ht, this]

/-! A concrete translation, of `src/my-mod.yu-c` to `src/my-mod.c`. -/

/-- Its surroundings. -/
def startExample : Start := start (List.map Char.toUpper) .auto (some (lit "src/my-mod.yu-c")) (some (lit "src/my-mod.c"))

/-- The table holds the functions. -/
def tellExample : EEnv where
  pe := { inputFile := startExample.inputFile, outputPython := startExample.outputPython, skip := startExample.skip }
  builtin := fun _ f => if f ∈ [lit "__FILE__", lit "__OUTPUT_FILE__", lit "__MODULE_NAME__", lit "__TITLE__"] then some .fn else none
  call := fun py f args seen => tellCall {} startExample (lit "2024-01-02 03:04") py f args seen

theorem tellExample_tells : Tells tellExample {} startExample (lit "2024-01-02 03:04") :=
  ⟨fun _ f hf => by simp only [tellExample]; rw [if_pos hf], fun _ _ _ _ => rfl⟩

theorem example_in : Called (lit "<stdin>") (some (lit "src/my-mod.yu-c")) (lit "my-mod.yu-c") :=
  .file (by decide +kernel) ⟨by decide +kernel, .inr ⟨lit "src", by decide +kernel⟩⟩

theorem example_out : Called (lit "<stdout>") (some (lit "src/my-mod.c")) (lit "my-mod.c") :=
  .file (by decide +kernel) ⟨by decide +kernel, .inr ⟨lit "src", by decide +kernel⟩⟩

example : Evaluates tellExample (fnCall (lit "__FILE__") none none []) {} (.pstr (inQuotes (lit "my-mod.yu-c"))) {} :=
  C81_file tellExample_tells (s := {}) rfl example_in

example : Evaluates tellExample (fnCall (lit "__MODULE_NAME__") none none []) {} (.pstr (lit "MY_MOD")) {} := by
  have h : ModuleName (some (lit "src/my-mod.yu-c")) ((lit "my-mod").map moduleChar) :=
    .file (by decide +kernel) (b := lit "my-mod.yu-c") ⟨by decide +kernel, .inr ⟨lit "src", by decide +kernel⟩⟩
      (.ext (s := lit "my-mod") (x := lit "yu-c") ⟨'m', by decide +kernel, by decide⟩ (by decide +kernel)) (by decide +kernel)
  have e : (lit "my-mod").map moduleChar = lit "MY_MOD" := by decide +kernel
  rw [e] at h
  exact C81_module tellExample_tells (fun _ _ => rfl) (s := {}) rfl h

/-- `($set __OUTPUT_FILE__ "a.txt")`, then `($__OUTPUT_FILE__)`. -/
example : ∃ s2, Evaluates tellExample (.set (.one ⟨lit "__OUTPUT_FILE__", none⟩) (.str ⟨lit "a.txt", none⟩)) {} .none s2 ∧
    Evaluates tellExample (fnCall (lit "__OUTPUT_FILE__") none none []) s2 (.pstr (inQuotes (lit "a.txt"))) s2 :=
  C81_set_told tellExample_tells rfl ⟨1, rfl⟩ (.str _) rfl

/-- `($__TITLE__ 0)` -/
example : Evaluates tellExample (fnCall (lit "__TITLE__") none none [.int 0]) {}
    (.pstr (titleC (lit "my-mod.c") (lit "my-mod.yu-c") [])) {} := by
  have hz : TimeAsked [.int 0] (lit "2024-01-02 03:04") [] := .off (.int 0) ((falsy_iff _).1 rfl)
  have ha : Args tellExample [.int 0] {} [.int 0] {} := .one ⟨1, rfl⟩ (by simp) (by simp) (.nil _)
  have hn : ¬ PythonName (lit "my-mod.c") := by
    rw [← C81_python (List.map Char.toUpper) .auto (some (lit "src/my-mod.yu-c")) _ example_out]
    decide +kernel
  exact (C81_title tellExample_tells (s := {}) rfl example_out example_in ha hz).2 hn

end Yupp
