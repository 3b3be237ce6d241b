import Verif.Spec.Config
import Verif.Lemmas.Path
/-!
# C70 — Options come from the configuration scripts
-/

namespace Yupp

open Spec

variable {i : Import} {g g' : Global}

theorem setting_final {k : Str} {v : Option PyOpt} (h : Setting (commonScript i) (ownScript i) k v) :
    finalCtx i.scripts i.fn k = (v.or (startCtx k)) := by
  have hc : commonScript i = i.scripts ([] ++ eYucfg) := rfl
  have ho : ownScript i = i.scripts ((splitext i.fn).1 ++ eYucfg) := rfl
  have un : ∀ {fn c}, Untouched (i.scripts fn) k → execScript i.scripts fn c k = c k := by
    intro fn c h
    unfold execScript
    cases hf : i.scripts fn with
    | none => rfl
    | some f => exact h f hf c
  have st : ∀ {fn c v}, Sets (i.scripts fn) k v → execScript i.scripts fn c k = some v := by
    rintro fn c v ⟨f, hf, h⟩
    unfold execScript
    rw [hf]; exact h c
  unfold finalCtx
  cases h with
  | own h => exact st h
  | common h1 h2 =>
    rw [ho] at h1
    rw [hc] at h2
    rw [un h1, st h2]; rfl
  | unset h1 h2 =>
    rw [ho] at h1
    rw [hc] at h2
    rw [un h1, un h2]; rfl

theorem run_some (hl : ListsKept i) : ∃ c, parseYuconfig i.scripts i.fn = some c ∧ ∀ k, c k = match finalCtx i.scripts i.fn k with
      | some (.int n) => some (.int n)
      | some (.bool b) => some (.bool b)
      | some (.list xs) =>
        if k = lit "directory" ∨ k = lit "dependency" ∨ k = lit "pp_define" then some (.list xs) else none
      | _ => none := by
  unfold parseYuconfig cfgOf
  rw [hl _ (.inl rfl), hl _ (.inr (.inl rfl)), hl _ (.inr (.inr rfl))]
  exact ⟨_, rfl, fun k => rfl⟩

theorem run_inv (h : i.run g = some g') : ∃ c, parseYuconfig i.scripts i.fn = some c ∧
    g'.cfg = (ppConfigure [] c g).cfg ∧ g'.sh = (ppConfigure [] c g).sh ∧ g'.define = (ppConfigure [] c g).define ∧
    g'.directory = (ppConfigure [] c g).directory ∧ g'.passage = g.passage := by
  unfold Import.run Import.start at h
  cases hc : parseYuconfig i.scripts i.fn with
  | none => rw [hc] at h; cases h
  | some c =>
    rw [hc] at h
    refine ⟨c, rfl, ?_⟩
    cases ht : i.translated <;> simp [ht, startShell, addToTable] at h <;> subst h <;> exact ⟨rfl, rfl, rfl, rfl, rfl⟩

theorem start_plain {k : Str} (hk : startCtx k = none) (hn : ¬ (k = lit "directory" ∨ k = lit "dependency" ∨ k = lit "pp_define"))
    {v : Option PyOpt} (hs : Setting (commonScript i) (ownScript i) k v) {c : Ctx} (hc : parseYuconfig i.scripts i.fn = some c) (d : Bool) :
    (c.getD k (.bool d)).truth = switch d v := by
  unfold parseYuconfig cfgOf at hc
  split at hc
  case isFalse => cases hc
  case isTrue =>
    cases hc
    unfold Ctx.getD
    simp only [setting_final hs, hk, Option.or_none]
    rcases v with _ | (n | b | xs | _)
    · rfl
    · simp only [Option.getD_some, PyOpt.truth, switch, bne, decide_not]
      by_cases h : n = 0
      · subst h; rfl
      · simp [h]
    · rfl
    · simp only [hn, if_false]; rfl
    · rfl

/-- **C70**. Each switch has the value that the file's own script gives it, else the one the common script gives it, else
    its default; values that are neither numbers nor truth values are ignored. -/
theorem C70_switches (h : i.run g = some g') {v : Option PyOpt} :
    (Setting (commonScript i) (ownScript i) (lit "pp_trim_app_indent") v → g'.cfg.trimAppIndent = switch true v) ∧
    (Setting (commonScript i) (ownScript i) (lit "pp_reduce_emptiness") v → g'.cfg.reduceEmptiness = switch true v) ∧
    (Setting (commonScript i) (ownScript i) (lit "pp_browse") v → g'.cfg.browse = switch false v) ∧
    (Setting (commonScript i) (ownScript i) (lit "read_only") v → g'.sh.readOnly = switch true v) := by
  obtain ⟨c, hc, h1, h2, -⟩ := run_inv h
  rw [h1, h2]
  exact ⟨fun hs => start_plain (by decide) (by decide) hs hc true, fun hs => start_plain (by decide) (by decide) hs hc true,
    fun hs => start_plain (by decide) (by decide) hs hc false, fun hs => start_plain (by decide) (by decide) hs hc true⟩

/-- **C70**. Comments are left alone as the number says: 1 those of C, 2 those of Python, 3 those of the language of the output;
    without a number, or with any other, none. -/
theorem C70_comments (h : i.run g = some g') {v : Option PyOpt} (hs : Setting (commonScript i) (ownScript i) (lit "pp_skip_comments") v) :
    (∀ n, v = some (.int n) → (n = 1 ∨ n = 2 ∨ n = 3) → (g'.cfg.skipComments : Int) = n) ∧
    (∀ n, v = some (.int n) → ¬ (n = 1 ∨ n = 2 ∨ n = 3) → g'.cfg.skipComments = 0) ∧
    (v = none → g'.cfg.skipComments = 0) := by
  obtain ⟨c, hc, h1, -⟩ := run_inv h
  have hv : ∀ n, v = some (.int n) → g'.cfg.skipComments = PyOpt.skip (.int n) := by
    rintro n rfl
    rw [h1]
    unfold parseYuconfig cfgOf at hc
    split at hc
    case isFalse => cases hc
    case isTrue =>
      cases hc
      simp only [ppConfigure, Ctx.getD, setting_final hs, Option.some_or, Option.getD_some]
  refine ⟨fun n hn h => ?_, fun n hn h => ?_, ?_⟩
  · rw [hv n hn]
    rcases h with rfl | rfl | rfl <;> rfl
  · rw [hv n hn]
    have h1 : n ≠ 1 := fun h' => h (.inl h')
    have h2 : n ≠ 2 := fun h' => h (.inr (.inl h'))
    have h3 : n ≠ 3 := fun h' => h (.inr (.inr h'))
    simp [PyOpt.skip, h1, h2, h3]
  · rintro rfl
    rw [h1]
    unfold parseYuconfig cfgOf at hc
    split at hc
    case isFalse => cases hc
    case isTrue =>
      cases hc
      simp only [ppConfigure, Ctx.getD, setting_final hs]
      rfl

/-- **C70**. A script can use the names of the options in upper case for their defaults, and for the kinds of comments. -/
theorem C70_names (h : i.run g = some g') {name : Str} {n : Nat} {f : Ctx → Ctx} (hf : commonScript i = some f)
    (ho : Untouched (ownScript i) (lit "pp_skip_comments"))
    (hn : name = lit "PP_SKIP_COMMENTS_NONE" ∧ n = 0 ∨ name = lit "PP_SKIP_C_COMMENTS" ∧ n = 1 ∨ name = lit "PP_SKIP_PYTHON_COMMENTS" ∧ n = 2 ∨
      name = lit "PP_SKIP_COMMENTS_AUTO" ∧ n = 3 ∨ name = lit "PP_SKIP_COMMENTS" ∧ n = 0)
    (hs : ∀ c, f c (lit "pp_skip_comments") = c name) : g'.cfg.skipComments = n := by
  have h0 : startCtx name = some (.int n) := by
    rcases hn with ⟨rfl, rfl⟩ | ⟨rfl, rfl⟩ | ⟨rfl, rfl⟩ | ⟨rfl, rfl⟩ | ⟨rfl, rfl⟩ <;> decide
  have hfin : finalCtx i.scripts i.fn (lit "pp_skip_comments") = some (.int n) := by
    unfold finalCtx
    have hc : i.scripts ([] ++ eYucfg) = some f := hf
    have h1 : execScript i.scripts ([] ++ eYucfg) startCtx (lit "pp_skip_comments") = some (.int n) := by
      unfold execScript; rw [hc]; simp only [hs, h0]
    unfold execScript at h1 ⊢
    cases hw : i.scripts ((splitext i.fn).1 ++ eYucfg) with
    | none => exact h1
    | some w => simp only; rw [ho w hw]; exact h1
  obtain ⟨c, hc, h1, -⟩ := run_inv h
  rw [h1]
  unfold parseYuconfig cfgOf at hc
  split at hc
  case isFalse => cases hc
  case isTrue =>
    cases hc
    simp only [ppConfigure, Ctx.getD, hfin, Option.getD_some]
    rcases hn with ⟨-, rfl⟩ | ⟨-, rfl⟩ | ⟨-, rfl⟩ | ⟨-, rfl⟩ | ⟨-, rfl⟩ <;> rfl

/-- **C70**. The same for the switches. -/
theorem C70_switch_names (h : i.run g = some g') {name opt : Str} {b : Bool} {f : Ctx → Ctx} (hf : commonScript i = some f)
    (ho : Untouched (ownScript i) opt)
    (hn : name = lit "PP_TRIM_APP_INDENT" ∧ b = true ∨ name = lit "PP_REDUCE_EMPTINESS" ∧ b = true ∨ name = lit "PP_BROWSE" ∧ b = false)
    (hs : ∀ c, f c opt = c name) :
    (opt = lit "pp_trim_app_indent" → g'.cfg.trimAppIndent = b) ∧ (opt = lit "pp_reduce_emptiness" → g'.cfg.reduceEmptiness = b) ∧
    (opt = lit "pp_browse" → g'.cfg.browse = b) := by
  have h0 : startCtx name = some (.bool b) := by
    rcases hn with ⟨rfl, rfl⟩ | ⟨rfl, rfl⟩ | ⟨rfl, rfl⟩ <;> decide
  have hfin : finalCtx i.scripts i.fn opt = some (.bool b) := by
    unfold finalCtx
    have hc : i.scripts ([] ++ eYucfg) = some f := hf
    have h1 : execScript i.scripts ([] ++ eYucfg) startCtx opt = some (.bool b) := by
      unfold execScript; rw [hc]; simp only [hs, h0]
    unfold execScript at h1 ⊢
    cases hw : i.scripts ((splitext i.fn).1 ++ eYucfg) with
    | none => exact h1
    | some w => simp only; rw [ho w hw]; exact h1
  obtain ⟨c, hc, h1, -⟩ := run_inv h
  rw [h1]
  unfold parseYuconfig cfgOf at hc
  split at hc
  case isFalse => cases hc
  case isTrue =>
    cases hc
    refine ⟨?_, ?_, ?_⟩ <;> rintro rfl <;> simp [ppConfigure, Ctx.getD, hfin, PyOpt.truth]

theorem appends_final {k : Str} (hk : startCtx k = some (.list [])) {xs ys : List Str}
    (hc : Appends (commonScript i) k xs ∨ (xs = [] ∧ Untouched (commonScript i) k))
    (ho : Appends (ownScript i) k ys ∨ (ys = [] ∧ Untouched (ownScript i) k)) :
    finalCtx i.scripts i.fn k = some (.list (xs ++ ys)) := by
  have step : ∀ {fn c zs ws}, c k = some (.list zs) → (Appends (i.scripts fn) k ws ∨ (ws = [] ∧ Untouched (i.scripts fn) k)) →
      execScript i.scripts fn c k = some (.list (zs ++ ws)) := by
    intro fn c zs ws h0 h
    unfold execScript
    rcases h with ⟨f, hf, h⟩ | ⟨rfl, h⟩
    · rw [hf]; exact h c zs h0
    · rw [List.append_nil]
      cases hf : i.scripts fn with
      | none => exact h0
      | some f => rw [← h0]; exact h f hf c
  unfold finalCtx
  exact step (step hk hc) ho

/-- **C70**. Directories, constants and files to watch: those that the common script adds, then those that the file's own
    script adds. -/
theorem C70_lists (h : i.run g = some g') {k : Str} {xs ys : List Str}
    (hc : Appends (commonScript i) k xs ∨ (xs = [] ∧ Untouched (commonScript i) k))
    (ho : Appends (ownScript i) k ys ∨ (ys = [] ∧ Untouched (ownScript i) k)) :
    (k = lit "directory" → g'.directory = xs ++ ys) ∧ (k = lit "pp_define" → g'.define = xs ++ ys) ∧
    (k = lit "dependency" → ∀ c, parseYuconfig i.scripts i.fn = some c → (procCfg c).dependency = xs ++ ys) := by
  obtain ⟨c, hp, -, -, h3, h4, -⟩ := run_inv h
  rw [h3, h4]
  have cf : ∀ {k}, k = lit "directory" ∨ k = lit "dependency" ∨ k = lit "pp_define" → startCtx k = some (.list []) →
      (Appends (commonScript i) k xs ∨ (xs = [] ∧ Untouched (commonScript i) k)) →
      (Appends (ownScript i) k ys ∨ (ys = [] ∧ Untouched (ownScript i) k)) →
      ∀ c, parseYuconfig i.scripts i.fn = some c → c k = some (.list (xs ++ ys)) := by
    intro k hk h0 hc ho c hp
    unfold parseYuconfig cfgOf at hp
    split at hp
    case isFalse => cases hp
    case isTrue =>
      cases hp
      simp only [appends_final h0 hc ho, hk, if_true]
  refine ⟨?_, ?_, ?_⟩
  · rintro rfl
    simp only [ppConfigure, Ctx.getD, cf (.inl rfl) (by decide) hc ho c hp]
    rfl
  · rintro rfl
    simp only [ppConfigure, Ctx.getD, cf (.inr (.inr rfl)) (by decide) hc ho c hp]
    rfl
  · rintro rfl c hp
    simp only [procCfg, Ctx.getD, cf (.inr (.inl rfl)) (by decide) hc ho c hp]
    rfl

/-- **C70**. A file is translated anew whenever the option `force` is on. -/
theorem C70_force {c : Ctx} (hp : parseYuconfig i.scripts i.fn = some c) {v : Option PyOpt}
    (hs : Setting (commonScript i) (ownScript i) (lit "force") v) : (procCfg c).force = switch false v :=
  start_plain (by decide) (by decide) hs hp false

/-- **C70**. The options of a translation do not depend on what the process translated before; it is the first pass. -/
theorem C70_no_history {is : List Import} {g0 g1 a b : Global} (h1 : runImports is g0 = some g1) (ha : i.run g1 = some a)
    (hb : i.run g0 = some b) : SameOptions a b ∧ a.passage = g0.passage := by
  obtain ⟨c, hc, a1, a2, a3, a4, a5⟩ := run_inv ha
  obtain ⟨c', hc', b1, b2, b3, b4, b5⟩ := run_inv hb
  rw [hc] at hc'
  cases hc'
  refine ⟨⟨a1.trans b1.symm, a2.trans b2.symm, a3.trans b3.symm, a4.trans b4.symm⟩, ?_⟩
  rw [a5]
  clear ha hb hc a1 a2 a3 a4 a5 b1 b2 b3 b4 b5
  induction is generalizing g0 with
  | nil => cases h1; rfl
  | cons j js ih =>
    unfold runImports at h1
    cases hj : j.run g0 with
    | none => rw [hj] at h1; cases h1
    | some g2 =>
      rw [hj] at h1
      obtain ⟨_, _, _, _, _, _, h⟩ := run_inv hj
      rw [ih h1, h]

/-- **C70**, what is read: the options depend on two scripts only, `.yuconfig` of the working directory and the file's own. -/
theorem C70_two_scripts (i j : Import) (g : Global) (hf : i.fn = j.fn) (ht : i.translated = j.translated) (ha : i.adds = j.adds)
    (hc : commonScript i = commonScript j) (ho : ownScript i = ownScript j) : i.run g = j.run g := by
  have : finalCtx i.scripts i.fn = finalCtx j.scripts j.fn := by
    unfold commonScript at hc
    unfold ownScript at ho
    unfold finalCtx execScript
    rw [hf] at ho
    rw [hf]
    show (match i.scripts ((splitext j.fn).1 ++ lit ".yuconfig") with | some f => f (match i.scripts (lit ".yuconfig") with | some f => f startCtx | none => startCtx) | none => (match i.scripts (lit ".yuconfig") with | some f => f startCtx | none => startCtx)) = _
    rw [hc, ho]
    rfl
  unfold Import.run Import.start parseYuconfig
  rw [this, ht, ha]

/-- **C70**, where it fails: options for all files of a directory are documented to stand in its file `.yuconfig`; but if the
    source is in another directory than the working directory, that file is not read. -/
theorem C70_directory_of_the_source_not_read (i : Import) (g : Global) (d b : Str) (hfn : i.fn = d ++ '/' :: b) (hb : b ≠ [])
    (hs : '/' ∉ b) (f : Ctx → Ctx) :
    Import.run { i with scripts := fun n => if n = d ++ '/' :: lit ".yuconfig" then some f else i.scripts n } g = i.run g := by
  have hd : IsDir (d ++ ['/']) := by
    unfold IsDir; exact .inr (by simp)
  have hsx : (splitext i.fn).1 = d ++ '/' :: (splitextBase b).1 := by
    rw [hfn, show d ++ '/' :: b = (d ++ ['/']) ++ b by simp, splitext_dir hd hs]; simp
  apply C70_two_scripts <;> try rfl
  · show (if lit ".yuconfig" = d ++ '/' :: lit ".yuconfig" then some f else i.scripts (lit ".yuconfig")) = i.scripts (lit ".yuconfig")
    rw [if_neg]
    intro h
    have := congrArg List.length h
    simp at this
    omega
  · show (if (splitext i.fn).1 ++ lit ".yuconfig" = d ++ '/' :: lit ".yuconfig" then some f else i.scripts ((splitext i.fn).1 ++ lit ".yuconfig")) = _
    rw [if_neg]
    · rfl
    · rw [hsx]
      intro h
      have := congrArg List.length h
      simp at this
      unfold splitextBase at this
      split at this
      · rename_i s e hsl
        split at this
        · exact hb this
        · rename_i hall
          simp at this
          subst this
          exact hall rfl
      · exact hb this

namespace ConfigExample

/-- The common script turns browsing on and adds a directory; the script of `m.py` turns it off and adds another. -/
def common : Ctx → Ctx := fun c => Ctx.put (match c (lit "directory") with
  | some (.list xs) => c.put (lit "directory") (.list (xs ++ [lit "lib"]))
  | _ => c) (lit "pp_browse") (.bool true)
def own : Ctx → Ctx := fun c => Ctx.put (match c (lit "directory") with
  | some (.list xs) => c.put (lit "directory") (.list (xs ++ [lit "inc"]))
  | _ => c) (lit "pp_browse") (.int 0)
def scripts : Scripts := fun n => if n = lit ".yuconfig" then some common else if n = lit "m.yuconfig" then some own else none
def m : Import := ⟨scripts, lit "m.py", true, []⟩
def other : Import := ⟨scripts, lit "n.py", true, []⟩

theorem m_common : commonScript m = some common := rfl
theorem m_own : ownScript m = some own := rfl
theorem own_browse : Sets (ownScript m) (lit "pp_browse") (.int 0) := ⟨own, m_own, fun _ => rfl⟩
theorem own_directory : Appends (ownScript m) (lit "directory") [lit "inc"] := by
  refine ⟨own, m_own, fun c ys h => ?_⟩
  unfold own
  rw [h]
  show (if lit "directory" = lit "pp_browse" then _ else if lit "directory" = lit "directory" then _ else _) = _
  rw [if_neg (by decide), if_pos rfl]
theorem common_directory : Appends (commonScript m) (lit "directory") [lit "lib"] := by
  refine ⟨common, m_common, fun c ys h => ?_⟩
  unfold common
  rw [h]
  show (if lit "directory" = lit "pp_browse" then _ else if lit "directory" = lit "directory" then _ else _) = _
  rw [if_neg (by decide), if_pos rfl]

/-- They run, browsing is off and both directories are searched. -/
example (t : Str → Option BVal) : ∃ g', m.run { table := t } = some g' ∧ g'.cfg.browse = false ∧ g'.directory = [lit "lib", lit "inc"] := by
  have hs : ∀ k, k = lit "directory" ∨ k = lit "dependency" ∨ k = lit "pp_define" → (finalCtx m.scripts m.fn k).isSome := by
    rintro k (rfl | rfl | rfl) <;> decide +kernel
  obtain ⟨c, hc, -⟩ := run_some (i := m) hs
  have hr : ∃ g', m.run { table := t } = some g' := by
    unfold Import.run Import.start
    rw [hc]
    exact ⟨_, rfl⟩
  obtain ⟨g', hr⟩ := hr
  exact ⟨g', hr, (C70_switches hr).2.2.1 (.own own_browse), (C70_lists hr (.inl common_directory) (.inl own_directory)).1 rfl⟩

end ConfigExample

/-- **C70**, where it fails: the names in upper case that the scripts find in their namespace are not options. -/
theorem C70_upper_case_no_effect : ∃ i : Import, Sets (ownScript i) (lit "PP_BROWSE") (.bool true) ∧
    ∀ g g', i.run g = some g' → g'.cfg.browse = false := by
  refine ⟨⟨fun n => if n = lit "a.yuconfig" then some fun c => c.put (lit "PP_BROWSE") (.bool true) else none, lit "a.py", true, []⟩,
    ⟨fun c => c.put (lit "PP_BROWSE") (.bool true), rfl, fun c => rfl⟩, ?_⟩
  intro g g' h
  refine (C70_switches h (v := none)).2.2.1 (.unset ?_ ?_)
  · intro f hf c
    have : (some fun c => Ctx.put c (lit "PP_BROWSE") (.bool true)) = some f := hf
    cases this
    show (if lit "pp_browse" = lit "PP_BROWSE" then _ else _) = _
    rw [if_neg (by decide)]
  · intro f hf c
    cases hf

end Yupp
