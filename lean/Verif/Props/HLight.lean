import Verif.Spec.HLight
import Verif.Props.HBegin
/-!
# C104 — The light header
-/

namespace Yupp
open Spec

/-- The pieces of `h-begin` of `lib/h-light.yu` behind its definition. -/
def hLightSlots : List Slot :=
  [.plain (lit "\n#ifndef "),
   .name hName,
   .plain (lit "_H\n#define "),
   .name hName,
   .plain (lit "_H\n\n#ifdef  "),
   .name hName,
   .plain (lit "_IMPLEMENT\n#define "),
   .name hName,
   .plain (lit "_VAR( decl ) \\\n\tdecl\n#define "),
   .name hName,
   .plain (lit "_VAR_INIT( decl, ... ) \\\n\tdecl = __VA_ARGS__\n\n#define "),
   .name hName,
   .plain (lit "_INL\n\n#else  /* "),
   .name hName,
   .plain (lit "_IMPLEMENT */\n#define "),
   .name hName,
   .plain (lit "_VAR( decl ) \\\n\textern decl\n#define "),
   .name hName,
   .plain (lit "_VAR_INIT( decl, ... ) \\\n\textern decl\n\n#if __GNUC__ && !__GNUC_STDC_INLINE__\n#define "),
   .name hName,
   .plain (lit "_INL \\\n\textern inline\n#else\n#define "),
   .name hName,
   .plain (lit "_INL \\\n\tinline\n#endif\n\n#endif /* "),
   .name hName,
   .plain (lit "_IMPLEMENT */\n")]

theorem hLight_written : hLightBody = written hLightSlots := by decide +kernel

theorem hLight_checked : slotsCheck hLightSlots = true := by decide +kernel

theorem hLight_first : ∃ ps, hLightSlots = .plain (lit "\n#ifndef ") :: ps := ⟨_, rfl⟩

theorem hLight_last : ∃ ps w, hLightSlots = ps ++ [.plain (w ++ ['\n'])] := ⟨hLightSlots.take 24, lit "_IMPLEMENT */", rfl⟩

theorem hLight_guard : ∃ w ps, hLightSlots = [.plain (lit "\n#ifndef "), .name hName, .plain (lit "_H\n#define "), .name hName, .plain (lit "_H\n" ++ w)] ++ ps :=
  ⟨lit "\n#ifdef  ", hLightSlots.drop 5, rfl⟩

/-- The pieces of `h-end` of `lib/h-light.yu`. -/
def hLightEndSlots : List Slot :=
  [.plain (lit "\n#undef "), .name hName, .plain (lit "_VAR\n#undef "), .name hName, .plain (lit "_VAR_INIT\n#undef "), .name hName, .plain (lit "_INL\n#endif\n")]

theorem hLightEnd_written : hLightEndText = written hLightEndSlots := by decide +kernel

theorem hLightEnd_ok {m : Mode} (hm : m.remarks ≠ .python) : SlotsOk m hLightEndSlots := by
  simp only [hLightEndSlots, SlotsOk]
  refine ⟨?_, ?_, free_hName, ?_, ?_, free_hName, ?_, ?_, free_hName, ?_, ?_, trivial⟩ <;>
    first | exact plainOk_hash hm (by decide +kernel) (by decide +kernel) | (intro u qs h; cases h)

theorem hLightEnd_completed (n : Str) : completed (fun _ => n) hLightEndSlots = lightEnd n := by
  simp [hLightEndSlots, completed, lightEnd, lightMacros, lit]

theorem hLight_conds (d : Nat) : slotsConds ([], some d) hLightSlots = some ([], some (d + 1)) := by kernel_rfl

theorem hLightEnd_conds (d : Nat) : slotsConds ([], some (d + 1)) hLightEndSlots = some ([], some d) := by kernel_rfl

set_option maxRecDepth 100000 in
/-- **C104.** The macros are those of the file `lib/h-light.yu`. -/
theorem C104_light_library : DefinesMacro hLightLines (lit "h-begin") [hParam] hLightText ∧ DefinesMacro hLightEndLines (lit "h-end") [] hLightEndText :=
  ⟨definesMacro_of (by decide +kernel), definesMacro_of (by decide +kernel)⟩

attribute [local irreducible] hLightBody hLightSlots hLightEndText hLightEndSlots

theorem lightBegin_pieces (n : Str) : lightBegin n = completed (fun _ => n) hLightSlots := by
  unfold lightBegin
  rw [hLight_written, header_pieces hLight_checked]

/-- **C104.** `($h-begin name)` of the light variant, not in an indented line. -/
theorem C104_light_begin (e : EEnv) (x : BExt) (fn : Node) (text decl : Src) (c0 : Option Src) (args : List Node) (v : Node) (n : Str)
    (loc : Option Loc) (s s1 s2 : ESt) (hf : Evaluates e fn s (.mclosure text [(hParam, .bound)] decl c0) s1) (htext : text.txt = hLightText)
    (ha : Args e args s1 [v] s2) (hv : Value v) (hvn : v ≠ .none) (hvt : ArgText v n) (hn : Yupp.IsName n) (hb : Bare e s2 n)
    (hup : Standard e x (lit "upper")) (hub : Unbound (lit "upper") s2)
    (hsk : (modeOf e.pe).remarks = .none) (hpy : e.pe.outputPython = false) :
    ∃ s3 u, s3.env = s2.env ∧ EachChar Capital n u ∧
      ∀ ind cut rest o, (∀ c i, ind ≠ .str (c :: i)) → Generates e (.str []) false rest (push s3 [(hName, .pstr u)]) o →
        Generates e ind cut (.apply fn args [] loc :: rest) s (o.after ('\n' :: fragment e.cfg (lightBegin u) true)).leave := by
  unfold lightBegin
  rw [hLight_written]
  exact header_begins hLight_checked hLight_first hLight_last e x fn text decl c0 args v n loc s s1 s2 hf
    (by rw [htext, ← hLight_written]; rfl) ha hv hvn hvt hn hb hup hub hsk hpy

/-- **C104.** `($h-end)` of the light variant: the macros of the header are undefined, and its condition is closed. -/
theorem C104_light_end (e : EEnv) (fn : Node) (text decl : Src) (c0 : Option Src) (args : List Node) (loc : Option Loc)
    (s s1 s2 : ESt) (hf : Evaluates e fn s (.mclosure text [] decl c0) s1) (htext : text.txt = hLightEndText) (ha : Args e args s1 [] s2)
    (hsk : e.pe.skip ≠ .python) (hk : e.pe.outputPython = true → e.pe.inputFile ≠ natStr s2.p.world.inclusion.length)
    (n : Str) (hn : Stands e s2 hName n) (h1 : OneLine n) :
    ∃ s3, s3.env = s2.env ∧ (∃ v, Evaluates e (.apply fn args [] loc) s v s3 ∧ v.text? = some (lightEnd n)) ∧
      ∀ ind cut rest o, Generates e .no false rest s3 o →
        Generates e ind cut (.apply fn args [] loc :: rest) s (o.after (blockAt e.cfg ind (lightEnd n))) := by
  rw [← hLightEnd_completed]
  have hm : (modeOf e.pe).remarks ≠ .python := by
    unfold modeOf
    cases h : e.pe.skip <;> simp_all
  refine C103_template e fn text decl c0 args loc s s1 s2 hf ha hLightEndSlots (htext.trans hLightEnd_written) (hLightEnd_ok hm) ?_
    (by rw [htext]; decide +kernel) hk (fun _ => n) ?_
  · unfold hLightEndSlots; decide
  · intro a h
    have : a = hName := by unfold hLightEndSlots at h; simpa using h
    subst this
    exact ⟨hn, h1⟩

/-- **C104.** The light header tests and defines the guard. -/
theorem C104_light_guard (n : Str) : ∃ r, lightBegin n = lit "\n#ifndef " ++ n ++ lit "_H\n#define " ++ n ++ lit "_H\n" ++ r := by
  obtain ⟨w, ps, hps⟩ := hLight_guard
  rw [lightBegin_pieces, hps]
  exact ⟨w ++ completed (fun _ => n) ps, by simp [completed]⟩

/-- **C104.** The conditionals of the light header are balanced. -/
theorem C104_light_balanced {n : Str} (hn : '\n' ∉ n) (cfg : Config) (b : Bool) (d : Nat) :
    Conditionals d (fragment cfg (lightBegin n) b) (d + 1) ∧ Conditionals (d + 1) (lightEnd n) d := by
  have h1 : Conditionals d (lightBegin n) (d + 1) := by
    unfold Conditionals
    rw [lightBegin_pieces]
    exact slotsConds_sound hn (hLight_conds d)
  refine ⟨?_, ?_⟩
  · unfold fragment
    split
    · obtain ⟨r, hr⟩ := C104_light_guard n
      have hr : ∃ r, lightBegin n = '\n' :: '#' :: r := ⟨_, hr⟩
      obtain ⟨r, hr⟩ := hr
      rw [hr] at h1 ⊢
      exact conds_strip h1
    · exact h1
  · unfold Conditionals
    rw [← hLightEnd_completed]
    exact slotsConds_sound hn (hLightEnd_conds d)

/-! Examples. -/

/-- `($h-begin foo)` of the light variant. -/
example (x : BExt) (p : PSt) (out : Option Str) (rept : Bool) (seen : List Node) (sc : Scopes)
    (hsc : sc = [[(lit "h-begin", .mclosure ⟨hLightText, none⟩ [(hParam, .bound)] ⟨[], none⟩ none)]]) :
    ∃ s', Generates (upperEnv x) .none false [.apply (.var false [] ⟨lit "h-begin", none⟩) [.var false [] ⟨lit "foo", none⟩] [] none]
      ⟨sc, p, out, rept, seen⟩ (.text ('\n' :: fragment (upperEnv x).cfg (lightBegin (lit "FOO")) true) s') := by
  subst hsc
  have hbare : ∀ v, Bare (upperEnv x) ⟨[[(lit "h-begin", v)]], p, out, rept, seen⟩ (lit "foo") := fun v => ⟨by rfl, by rfl, by decide, by decide⟩
  obtain ⟨s3, u, henv, hu, h⟩ := C104_light_begin (upperEnv x) x (.var false [] ⟨lit "h-begin", none⟩) ⟨hLightText, none⟩ ⟨[], none⟩ none
    [.var false [] ⟨lit "foo", none⟩] (.atom ⟨lit "foo", none⟩) (lit "foo") none _ _ _
    (evaluates_iff.2 (var_value (s := ⟨[[(lit "h-begin", .mclosure ⟨hLightText, none⟩ [(hParam, .bound)] ⟨[], none⟩ none)]], p, out, rept, seen⟩)
      (by rfl) (by simp))) rfl
    (.one (bare_eval (hbare _)) (by simp) (by simp) (.nil _)) (.atom _) (by simp) (.atom _) name_foo (hbare _)
    ⟨fun _ => rfl, fun _ _ _ => rfl⟩ (by rfl) rfl rfl
  rw [capital_foo hu] at h
  exact ⟨_, by simpa [Yield.after, Yield.leave] using h .none false [] _ (by simp) .nil⟩

end Yupp
