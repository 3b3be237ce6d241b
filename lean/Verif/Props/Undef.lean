import Verif.Spec.Undef
import Verif.Props.HLight
/-!
# C108 — The macros of a header are undefined at its end
-/

namespace Yupp
open Spec

/-- A line of a header: a directive with the name of the header and what follows, another line with the name, a line without it. -/
inductive HLine where
  | direct (suf rest : Str)
  | named (w r : Str)
  | other (w : Str)

/-- The lines, for the directive `d` and the name `n`. -/
def hText (d n : Str) : List HLine → Str
  | [] => []
  | .direct suf rest :: ls => d ++ (n ++ (suf ++ (rest ++ '\n' :: hText d n ls)))
  | .named w r :: ls => w ++ (n ++ (r ++ '\n' :: hText d n ls))
  | .other w :: ls => w ++ '\n' :: hText d n ls

/-- The lines are as they should be: the directive stands only in those for it. -/
def lineOk (d : Str) : HLine → Bool
  | .direct suf rest => suf.all (fun c => decide (CChar c)) && (rest.head?.all fun c => !decide (CChar c)) && rest.all (fun c => c != '\n')
  | .named w r => decide (d.length ≤ w.length) && !d.isPrefixOf w && w.all (fun c => c != '\n') && r.all (fun c => c != '\n')
  | .other w => !d.isPrefixOf w && w.all (fun c => c != '\n')

theorem run_unique {P : Char → Prop} : ∀ {u v r t : Str}, (∀ c ∈ u, P c) → (∀ c ∈ v, P c) → (∀ c, r.head? = some c → ¬ P c) →
    (∀ c, t.head? = some c → ¬ P c) → u ++ r = v ++ t → u = v
  | [], [], _, _, _, _, _, _, _ => rfl
  | [], c :: v, r, t, _, hv, hr, _, h => by
    rw [List.nil_append] at h
    exact absurd (hv c (List.mem_cons_self ..)) (hr c (by rw [h]; rfl))
  | c :: u, [], r, t, hu, _, _, ht, h => by
    rw [List.nil_append] at h
    exact absurd (hu c (List.mem_cons_self ..)) (ht c (by rw [← h]; rfl))
  | c :: u, d :: v, r, t, hu, hv, hr, ht, h => by
    rw [List.cons_append, List.cons_append, List.cons.injEq] at h
    rw [h.1, run_unique (fun c hc => hu c (List.mem_cons_of_mem _ hc)) (fun c hc => hv c (List.mem_cons_of_mem _ hc)) hr ht h.2]

/-- The first line and the others. -/
theorem directive_line {d l t x : Str} (hl : '\n' ∉ l) : Directive d (l ++ '\n' :: t) x ↔
    ((∀ c ∈ x, CChar c) ∧ ∃ b, l ++ '\n' :: t = d ++ (x ++ b) ∧ ∀ c, b.head? = some c → ¬ CChar c) ∨ Directive d t x := by
  constructor
  · rintro ⟨hx, a, b, h, ha, hb⟩
    rcases ha with rfl | ⟨a, rfl⟩
    · exact .inl ⟨hx, b, h, hb⟩
    · refine .inr ⟨hx, ?_⟩
      rw [List.append_assoc, List.singleton_append] at h
      rcases List.append_eq_append_iff.1 h with ⟨k, rfl, hk⟩ | ⟨k, rfl, hk⟩
      · cases k with
        | nil =>
          rw [List.nil_append, List.cons.injEq] at hk
          exact ⟨[], b, hk.2, .inl rfl, hb⟩
        | cons c k =>
          rw [List.cons_append, List.cons.injEq] at hk
          exact ⟨k ++ ['\n'], b, by rw [hk.2]; simp, .inr ⟨k, rfl⟩, hb⟩
      · cases k with
        | nil =>
          rw [List.nil_append, List.cons.injEq] at hk
          exact ⟨[], b, hk.2.symm, .inl rfl, hb⟩
        | cons c k =>
          rw [List.cons_append, List.cons.injEq] at hk
          exact absurd (by rw [← hk.1]; simp) hl
  · rintro (⟨hx, b, h, hb⟩ | ⟨hx, a, b, rfl, ha, hb⟩)
    · exact ⟨hx, [], b, h, .inl rfl, hb⟩
    · refine ⟨hx, l ++ '\n' :: a, b, by simp, .inr ?_, hb⟩
      rcases ha with rfl | ⟨a, rfl⟩
      · exact ⟨l, rfl⟩
      · exact ⟨l ++ '\n' :: a, by simp⟩

/-- A text without line ends at the beginning of a line and another. -/
theorem prefix_line {d l t y : Str} (hd : '\n' ∉ d) (h : l ++ '\n' :: t = d ++ y) : d <+: l := by
  rcases List.append_eq_append_iff.1 h with ⟨k, rfl, hk⟩ | ⟨k, rfl, hk⟩
  · cases k with
    | nil => simp
    | cons c k =>
      rw [List.cons_append, List.cons.injEq] at hk
      exact absurd (by rw [← hk.1]; simp) hd
  · exact ⟨k, rfl⟩

theorem noBreak_of {w : Str} (h : w.all (fun c => c != '\n') = true) : '\n' ∉ w := by
  intro hm
  have := List.all_eq_true.1 h _ hm
  simp at this

theorem noBreak_c {w : Str} (h : ∀ c ∈ w, CChar c) : '\n' ∉ w := fun hm => absurd (h _ hm) (by unfold CChar; decide)

/-- The directives of the lines. -/
theorem directive_iff {d n x : Str} (h0 : d ≠ []) (hd : '\n' ∉ d) (hn : ∀ c ∈ n, CChar c) : ∀ {ls : List HLine}, (∀ l ∈ ls, lineOk d l = true) →
    (Directive d (hText d n ls) x ↔ ∃ suf rest, .direct suf rest ∈ ls ∧ x = n ++ suf)
  | [], _ => by
    constructor
    · rintro ⟨-, a, b, h, -, -⟩
      have := congrArg List.length h
      have h2 := List.length_pos_iff.2 h0
      simp [hText] at this
      omega
    · rintro ⟨_, _, h, -⟩; cases h
  | .direct suf rest :: ls, hok => by
    have hk := hok _ (List.mem_cons_self ..)
    simp only [lineOk, Bool.and_eq_true] at hk
    obtain ⟨⟨h1, h2⟩, h3⟩ := hk
    have hs : ∀ c ∈ suf, CChar c := fun c hc => by simpa using List.all_eq_true.1 h1 c hc
    have hns : ∀ c ∈ n ++ suf, CChar c := by
      intro c hc
      rcases List.mem_append.1 hc with h | h
      · exact hn c h
      · exact hs c h
    have hr : ∀ c, (rest ++ '\n' :: hText d n ls).head? = some c → ¬ CChar c := by
      intro c hc
      cases rest with
      | nil =>
        obtain rfl : '\n' = c := by injection hc
        unfold CChar; decide
      | cons k rest =>
        obtain rfl : k = c := by injection hc
        simpa using h2
    have e0 : hText d n (.direct suf rest :: ls) = (d ++ (n ++ (suf ++ rest))) ++ '\n' :: hText d n ls := by simp [hText]
    have hl : '\n' ∉ d ++ (n ++ (suf ++ rest)) := by
      simp only [List.mem_append, not_or]
      exact ⟨hd, noBreak_c hn, noBreak_c hs, noBreak_of h3⟩
    rw [e0, directive_line hl, directive_iff h0 hd hn (fun l h => hok l (List.mem_cons_of_mem _ h))]
    constructor
    · rintro (⟨hx, b, h, hb⟩ | ⟨suf', rest', h, rfl⟩)
      · refine ⟨suf, rest, List.mem_cons_self .., ?_⟩
        have h : (n ++ suf) ++ (rest ++ '\n' :: hText d n ls) = x ++ b := by
          have : d ++ ((n ++ suf) ++ (rest ++ '\n' :: hText d n ls)) = d ++ (x ++ b) := by rw [← h]; simp
          exact List.append_cancel_left this
        exact (run_unique hns hx hr hb h).symm
      · exact ⟨suf', rest', List.mem_cons_of_mem _ h, rfl⟩
    · rintro ⟨suf', rest', h, rfl⟩
      rcases List.mem_cons.1 h with h | h
      · injection h with h h'
        subst h h'
        exact .inl ⟨hns, _, by simp, hr⟩
      · exact .inr ⟨suf', rest', h, rfl⟩
  | .named w r :: ls, hok => by
    have hk := hok _ (List.mem_cons_self ..)
    simp only [lineOk, Bool.and_eq_true, decide_eq_true_eq] at hk
    obtain ⟨⟨⟨h1, h2⟩, h3⟩, h4⟩ := hk
    have e0 : hText d n (.named w r :: ls) = (w ++ (n ++ r)) ++ '\n' :: hText d n ls := by simp [hText]
    have hl : '\n' ∉ w ++ (n ++ r) := by
      simp only [List.mem_append, not_or]
      exact ⟨noBreak_of h3, noBreak_c hn, noBreak_of h4⟩
    rw [e0, directive_line hl, directive_iff h0 hd hn (fun l h => hok l (List.mem_cons_of_mem _ h))]
    constructor
    · rintro (⟨hx, b, h, hb⟩ | ⟨suf', rest', h, rfl⟩)
      · have := List.prefix_of_prefix_length_le (prefix_line hd h) (List.prefix_append w (n ++ r)) h1
        simp [List.isPrefixOf_iff_prefix.2 this] at h2
      · exact ⟨suf', rest', List.mem_cons_of_mem _ h, rfl⟩
    · rintro ⟨suf', rest', h, rfl⟩
      rcases List.mem_cons.1 h with h | h
      · cases h
      · exact .inr ⟨suf', rest', h, rfl⟩
  | .other w :: ls, hok => by
    have hk := hok _ (List.mem_cons_self ..)
    simp only [lineOk, Bool.and_eq_true] at hk
    obtain ⟨h2, h3⟩ := hk
    have e0 : hText d n (.other w :: ls) = w ++ '\n' :: hText d n ls := by simp [hText]
    rw [e0, directive_line (noBreak_of h3), directive_iff h0 hd hn (fun l h => hok l (List.mem_cons_of_mem _ h))]
    constructor
    · rintro (⟨hx, b, h, hb⟩ | ⟨suf', rest', h, rfl⟩)
      · have := prefix_line hd h
        simp [List.isPrefixOf_iff_prefix.2 this] at h2
      · exact ⟨suf', rest', List.mem_cons_of_mem _ h, rfl⟩
    · rintro ⟨suf', rest', h, rfl⟩
      rcases List.mem_cons.1 h with h | h
      · cases h
      · exact .inr ⟨suf', rest', h, rfl⟩

/-- The lines of `headerBegin`. -/
def hBeginDirs : List HLine :=
  [.other (lit ""),
   .named (lit "#ifndef ") (lit "_H"),
   .direct (lit "_H") (lit ""),
   .other (lit ""),
   .named (lit "#ifdef  ") (lit "_IMPLEMENT"),
   .direct (lit "_EXT") (lit ""),
   .direct (lit "_INIT") (lit "( ... ) \\"),
   .other (lit "\t= __VA_ARGS__"),
   .other (lit ""),
   .other (lit "#ifdef __cplusplus"),
   .direct (lit "_EXT_C") (lit " \\"),
   .other (lit "\textern \"C\""),
   .other (lit "#else"),
   .direct (lit "_EXT_C") (lit " \\"),
   .other (lit "\textern"),
   .other (lit "#endif"),
   .other (lit ""),
   .direct (lit "_VAR") (lit "( decl ) \\"),
   .other (lit "\tdecl"),
   .direct (lit "_VAR_INIT") (lit "( decl, ... ) \\"),
   .other (lit "\tdecl = __VA_ARGS__"),
   .other (lit ""),
   .other (lit "#ifdef __cplusplus"),
   .direct (lit "_VAR_C") (lit "( decl ) \\"),
   .other (lit "\textern \"C\" decl; decl"),
   .direct (lit "_VAR_C_INIT") (lit "( decl, ... ) \\"),
   .other (lit "\textern \"C\" decl; decl = __VA_ARGS__"),
   .other (lit "#else"),
   .direct (lit "_VAR_C") (lit "( decl ) \\"),
   .other (lit "\tdecl"),
   .direct (lit "_VAR_C_INIT") (lit "( decl, ... ) \\"),
   .other (lit "\tdecl = __VA_ARGS__"),
   .other (lit "#endif"),
   .other (lit ""),
   .direct (lit "_INL") (lit ""),
   .other (lit ""),
   .named (lit "#else  /* ") (lit "_IMPLEMENT */"),
   .direct (lit "_EXT") (lit " \\"),
   .other (lit "\textern"),
   .direct (lit "_INIT") (lit "( ... )"),
   .other (lit ""),
   .other (lit "#ifdef __cplusplus"),
   .direct (lit "_EXT_C") (lit " \\"),
   .other (lit "\textern \"C\""),
   .other (lit "#else"),
   .direct (lit "_EXT_C") (lit " \\"),
   .other (lit "\textern"),
   .other (lit "#endif"),
   .other (lit ""),
   .direct (lit "_VAR") (lit "( decl ) \\"),
   .other (lit "\textern decl"),
   .direct (lit "_VAR_INIT") (lit "( decl, ... ) \\"),
   .other (lit "\textern decl"),
   .other (lit ""),
   .other (lit "#ifdef __cplusplus"),
   .direct (lit "_VAR_C") (lit "( decl ) \\"),
   .other (lit "\textern \"C\" decl"),
   .direct (lit "_VAR_C_INIT") (lit "( decl, ... ) \\"),
   .other (lit "\textern \"C\" decl"),
   .other (lit "#else"),
   .direct (lit "_VAR_C") (lit "( decl ) \\"),
   .other (lit "\textern decl"),
   .direct (lit "_VAR_C_INIT") (lit "( decl, ... ) \\"),
   .other (lit "\textern decl"),
   .other (lit "#endif"),
   .other (lit ""),
   .other (lit "#if __GNUC__ && !__GNUC_STDC_INLINE__"),
   .direct (lit "_INL") (lit " \\"),
   .other (lit "\textern inline"),
   .other (lit "#else"),
   .direct (lit "_INL") (lit " \\"),
   .other (lit "\tinline"),
   .other (lit "#endif"),
   .other (lit ""),
   .named (lit "#endif /* ") (lit "_IMPLEMENT */")]

/-- The lines of `headerEnd`. -/
def hEndDirs : List HLine :=
  [.other (lit ""),
   .direct (lit "_EXT") (lit ""),
   .direct (lit "_INIT") (lit ""),
   .direct (lit "_EXT_C") (lit ""),
   .direct (lit "_VAR") (lit ""),
   .direct (lit "_VAR_INIT") (lit ""),
   .direct (lit "_VAR_C") (lit ""),
   .direct (lit "_VAR_C_INIT") (lit ""),
   .direct (lit "_INL") (lit ""),
   .other (lit "#endif")]

/-- The lines of `lightBegin`. -/
def lightBeginDirs : List HLine :=
  [.other (lit ""),
   .named (lit "#ifndef ") (lit "_H"),
   .direct (lit "_H") (lit ""),
   .other (lit ""),
   .named (lit "#ifdef  ") (lit "_IMPLEMENT"),
   .direct (lit "_VAR") (lit "( decl ) \\"),
   .other (lit "\tdecl"),
   .direct (lit "_VAR_INIT") (lit "( decl, ... ) \\"),
   .other (lit "\tdecl = __VA_ARGS__"),
   .other (lit ""),
   .direct (lit "_INL") (lit ""),
   .other (lit ""),
   .named (lit "#else  /* ") (lit "_IMPLEMENT */"),
   .direct (lit "_VAR") (lit "( decl ) \\"),
   .other (lit "\textern decl"),
   .direct (lit "_VAR_INIT") (lit "( decl, ... ) \\"),
   .other (lit "\textern decl"),
   .other (lit ""),
   .other (lit "#if __GNUC__ && !__GNUC_STDC_INLINE__"),
   .direct (lit "_INL") (lit " \\"),
   .other (lit "\textern inline"),
   .other (lit "#else"),
   .direct (lit "_INL") (lit " \\"),
   .other (lit "\tinline"),
   .other (lit "#endif"),
   .other (lit ""),
   .named (lit "#endif /* ") (lit "_IMPLEMENT */")]

/-- The lines of `lightEnd`. -/
def lightEndDirs : List HLine :=
  [.other (lit ""),
   .direct (lit "_VAR") (lit ""),
   .direct (lit "_VAR_INIT") (lit ""),
   .direct (lit "_INL") (lit ""),
   .other (lit "#endif")]

theorem hBegin_dirs (n : Str) : completed (fun _ => n) hBeginSlots = hText (lit "#define ") n hBeginDirs := by kernel_rfl
theorem hEnd_dirs (n : Str) : completed (fun _ => n) hEndSlots = hText (lit "#undef ") n hEndDirs := by kernel_rfl
theorem lightBegin_dirs (n : Str) : completed (fun _ => n) hLightSlots = hText (lit "#define ") n lightBeginDirs := by kernel_rfl
theorem lightEnd_dirs (n : Str) : completed (fun _ => n) hLightEndSlots = hText (lit "#undef ") n lightEndDirs := by kernel_rfl

/-- The suffixes of the directives. -/
def dirSuffixes : List HLine → List Str
  | [] => []
  | .direct suf _ :: ls => suf :: dirSuffixes ls
  | _ :: ls => dirSuffixes ls

theorem mem_dirSuffixes {suf : Str} : ∀ {ls : List HLine}, suf ∈ dirSuffixes ls ↔ ∃ rest, .direct suf rest ∈ ls
  | [] => by simp [dirSuffixes]
  | .direct s r :: ls => by
    simp only [dirSuffixes, List.mem_cons, mem_dirSuffixes (ls := ls)]
    constructor
    · rintro (rfl | ⟨r', h⟩)
      · exact ⟨r, .inl rfl⟩
      · exact ⟨r', .inr h⟩
    · rintro ⟨r', h | h⟩
      · injection h with h1 h2; exact .inl h1
      · exact .inr ⟨r', h⟩
  | .named w r :: ls => by simp [dirSuffixes, mem_dirSuffixes (ls := ls)]
  | .other w :: ls => by simp [dirSuffixes, mem_dirSuffixes (ls := ls)]

theorem directive_suffix {d n x : Str} (h0 : d ≠ []) (hd : '\n' ∉ d) (hn : ∀ c ∈ n, CChar c) {ls : List HLine} {ms : List Str} (hok : ls.all (lineOk d) = true)
    (hms : ((dirSuffixes ls).all (ms.contains ·) && ms.all ((dirSuffixes ls).contains ·)) = true) :
    Directive d (hText d n ls) x ↔ ∃ y ∈ ms, x = n ++ y := by
  rw [directive_iff h0 hd hn (fun l h => List.all_eq_true.1 hok l h)]
  rw [Bool.and_eq_true, List.all_eq_true, List.all_eq_true] at hms
  constructor
  · rintro ⟨suf, rest, h, rfl⟩
    exact ⟨suf, by simpa using hms.1 _ (mem_dirSuffixes.2 ⟨rest, h⟩), rfl⟩
  · rintro ⟨y, hy, rfl⟩
    obtain ⟨rest, h⟩ := mem_dirSuffixes.1 (by simpa using hms.2 y hy)
    exact ⟨y, rest, h, rfl⟩

/-- Behind white space that is removed at its beginning a text has the same directives. -/
theorem directive_fragment {d r x : Str} (cfg : Config) (b : Bool) (h : Directive d (fragment cfg ('\n' :: '#' :: r) b) x) :
    Directive d ('\n' :: '#' :: r) x := by
  unfold fragment at h
  split at h
  · rw [show lstrip ('\n' :: '#' :: r) = '#' :: r from rfl] at h
    exact (directive_line (l := []) (by simp)).2 (.inr h)
  · exact h

/-- **C108.** The beginning of a header defines the guard and the macros of the header, and no other macro. -/
theorem C108_defined {n : Str} (hn : ∀ c ∈ n, CChar c) (x : Str) :
    (MacroDefined (headerBegin n) x ↔ x = n ++ lit "_H" ∨ ∃ y ∈ hMacros, x = n ++ y) ∧
    (MacroDefined (lightBegin n) x ↔ x = n ++ lit "_H" ∨ ∃ y ∈ lightMacros, x = n ++ y) := by
  unfold MacroDefined
  constructor
  · rw [headerBegin_pieces, hBegin_dirs,
      directive_suffix (ms := lit "_H" :: hMacros) (by decide) (by decide) hn (by decide +kernel) (by decide +kernel)]
    simp
  · rw [lightBegin_pieces, lightBegin_dirs,
      directive_suffix (ms := lit "_H" :: lightMacros) (by decide) (by decide) hn (by decide +kernel) (by decide +kernel)]
    simp

/-- **C108.** The end of a header undefines the macros of the header, and no other macro. -/
theorem C108_undefined {n : Str} (hn : ∀ c ∈ n, CChar c) (x : Str) :
    (MacroUndefined (headerEnd n) x ↔ ∃ y ∈ hMacros, x = n ++ y) ∧
    (MacroUndefined (lightEnd n) x ↔ ∃ y ∈ lightMacros, x = n ++ y) := by
  unfold MacroUndefined
  constructor
  · rw [← hEnd_completed, hEnd_dirs, directive_suffix (ms := hMacros) (by decide) (by decide) hn (by decide +kernel) (by decide +kernel)]
  · rw [← hLightEnd_completed, lightEnd_dirs,
      directive_suffix (ms := lightMacros) (by decide) (by decide) hn (by decide +kernel) (by decide +kernel)]

/-- **C108.** So of the macros a header defines, only the guard is left behind its end. The text `fragment ..` is what `($h-begin)`
    writes (C104), and `headerEnd` what `($h-end)` writes (C103). -/
theorem C108_clean {n : Str} (hn : ∀ c ∈ n, CChar c) (cfg : Config) (b : Bool) (x : Str) (hg : x ≠ n ++ lit "_H") :
    (MacroDefined (fragment cfg (headerBegin n) b) x → MacroUndefined (headerEnd n) x) ∧
    (MacroDefined (fragment cfg (lightBegin n) b) x → MacroUndefined (lightEnd n) x) := by
  constructor
  · intro h
    obtain ⟨r, hr⟩ := headerBegin_hash n
    rw [hr] at h
    have h := directive_fragment cfg b h
    rw [← hr] at h
    exact (C108_undefined hn x).1.2 (((C108_defined hn x).1.1 h).resolve_left hg)
  · intro h
    obtain ⟨r, hr⟩ := C104_light_guard n
    obtain ⟨r, hr⟩ : ∃ r, lightBegin n = '\n' :: '#' :: r := ⟨_, hr⟩
    rw [hr] at h
    have h := directive_fragment cfg b h
    rw [← hr] at h
    exact (C108_undefined hn x).2.2 (((C108_defined hn x).2.1 h).resolve_left hg)

/-- The header `FOO` defines `FOO_VAR_C`, which its end undefines; it defines nothing for `BAR`. -/
example : MacroDefined (headerBegin (lit "FOO")) (lit "FOO_VAR_C") ∧ MacroUndefined (headerEnd (lit "FOO")) (lit "FOO_VAR_C") ∧
    ¬ MacroDefined (headerBegin (lit "FOO")) (lit "BAR_VAR_C") := by
  have hn : ∀ c ∈ lit "FOO", CChar c := by unfold CChar; decide
  refine ⟨(C108_defined hn _).1.2 (.inr ⟨lit "_VAR_C", by decide, by decide⟩), (C108_undefined hn _).1.2 ⟨lit "_VAR_C", by decide, by decide⟩, fun h => ?_⟩
  rcases (C108_defined hn _).1.1 h with h | ⟨y, -, h⟩
  · exact absurd h (by decide)
  · simp [lit] at h

end Yupp
