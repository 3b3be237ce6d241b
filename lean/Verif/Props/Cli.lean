import Verif.Spec.Cli
import Verif.Props.Command
import Verif.Props.Config
import Verif.Lemmas.Texts
/-!
# C88 — The dialogue, C89 — The options of the command, C90 — `translate`
-/

namespace Yupp

open Spec

variable {σ : Type}

/-! ## Lines -/

theorem dropWhile_blank {a t : Str} (ha : Blank a) (ht : ∀ c, t.head? = some c → isSpace c = false) : (a ++ t).dropWhile isSpace = t := by
  induction a with
  | nil =>
    cases t with
    | nil => rfl
    | cons c t => simp [List.dropWhile, ht c rfl]
  | cons c a ih =>
    have : isSpace c = true := ha c (by simp)
    simp only [List.cons_append, List.dropWhile, this]
    exact ih fun d hd => ha d (by simp [hd])

theorem dropWhile_parts (t : Str) : ∃ a, t = a ++ t.dropWhile isSpace ∧ Blank a :=
  ⟨t.takeWhile isSpace, (List.takeWhile_append_dropWhile ..).symm, fun c hc => List.all_eq_true.1 (List.all_takeWhile ..) c hc⟩

theorem strip_says {w l : Str} (h1 : ∀ c, w.head? = some c → isSpace c = false) (h2 : ∀ c, w.getLast? = some c → isSpace c = false)
    (hw : w ≠ []) : strip l = w ↔ Says w l := by
  constructor
  · intro h
    obtain ⟨a, ha, hb⟩ := dropWhile_parts l
    obtain ⟨b, hc, hd⟩ := dropWhile_parts (lstrip l).reverse
    refine ⟨a, b.reverse, ?_, hb, fun c hc => hd c (List.mem_reverse.1 hc)⟩
    have := congrArg List.reverse hc
    rw [List.reverse_reverse, List.reverse_append] at this
    rw [← h]
    unfold strip rstrip
    rw [← this]
    exact ha
  · rintro ⟨a, b, rfl, ha, hb⟩
    unfold strip lstrip rstrip
    have hl : ∀ c, (w ++ b).head? = some c → isSpace c = false := by
      intro c hc
      refine h1 c ?_
      cases w with
      | nil => exact absurd rfl hw
      | cons d w => exact hc
    rw [dropWhile_blank ha hl, List.reverse_append, dropWhile_blank, List.reverse_reverse]
    · exact fun c hc => hb c (List.mem_reverse.1 hc)
    · intro c hc
      rw [List.head?_reverse] at hc
      exact h2 c hc

theorem exit_says {l : Str} : strip l = lit "exit" ↔ Says (lit "exit") l := strip_says (by decide) (by decide) (by decide)
theorem test_says {l : Str} : strip l = lit "test" ↔ Says (lit "test") l := strip_says (by decide) (by decide) (by decide)

theorem strip_blank {t : Str} : (strip t).isEmpty = true ↔ Blank t := by
  constructor
  · intro h c hc
    obtain ⟨a, ha, hb⟩ := dropWhile_parts t
    obtain ⟨b, hc', hd⟩ := dropWhile_parts (lstrip t).reverse
    have hn : (lstrip t).reverse.dropWhile isSpace = [] := by
      have : strip t = [] := by simpa using h
      unfold strip rstrip at this
      simpa using this
    rw [hn, List.append_nil] at hc'
    rw [ha, List.mem_append] at hc
    rcases hc with hc | hc
    · exact hb c hc
    · exact hd c (hc' ▸ List.mem_reverse.2 hc)
  · intro h
    have : lstrip t = [] := by
      have := dropWhile_blank (t := []) h (by simp)
      rwa [List.append_nil] at this
    simp [strip, this, rstrip]

/-! ## The dialogue -/

theorem shown_answer {cfg : Config} {arrow : Str} {raw : Raw} {a : Str} (h : Shown cfg.reduceEmptiness arrow raw a) :
    answer arrow (pp cfg raw) = a := by
  cases h with
  | error => rfl
  | noTree => rfl
  | @tree t ht =>
    have : t.isEmpty = false := by cases t with | nil => exact absurd rfl ht | cons => rfl
    simp [answer, pp, Plain.txt, this]
  | nothing hf =>
    obtain ⟨h1, h2⟩ := finalText_pp hf
    simp [answer, h1, h2]
  | @text _ u hf hu =>
    obtain ⟨h1, h2⟩ := finalText_pp hf
    have : u.isEmpty = false := by cases u with | nil => exact absurd rfl hu | cons => rfl
    simp [answer, h1, h2, this]

theorem finalText_total (reduce : Bool) (raw : Raw) (h : ∀ t, raw ≠ .tree t) (h' : raw ≠ .raised) : ∃ u, FinalText reduce raw u := by
  cases raw with
  | raised => exact absurd rfl h'
  | tree t => exact absurd rfl (h t)
  | str t =>
    cases reduce with
    | false => exact ⟨_, .plain rfl⟩
    | true =>
      obtain ⟨ls, h1, -⟩ := C02_reduce_exact { reduceEmptiness := true } rfl t
      exact ⟨_, .plainReduced rfl h1⟩
  | res r =>
    cases reduce with
    | false => exact ⟨_, .browse rfl⟩
    | true => exact ⟨_, .browseReduced rfl⟩

/-- Something is shown of every outcome. -/
theorem shown_total (reduce : Bool) (arrow : Str) (raw : Raw) : ∃ a, Shown reduce arrow raw a := by
  by_cases h' : raw = .raised
  · subst h'; exact ⟨_, .error⟩
  · by_cases h : ∃ t, raw = .tree t
    · obtain ⟨t, rfl⟩ := h
      cases t with
      | nil => exact ⟨_, .noTree⟩
      | cons c t => exact ⟨_, .tree (by simp)⟩
    · obtain ⟨u, hu⟩ := finalText_total reduce raw (fun t ht => h ⟨t, ht⟩) h'
      cases u with
      | nil => exact ⟨_, .nothing hu⟩
      | cons c t => exact ⟨_, .text hu (by simp)⟩

/-- **C88**. Whatever is typed, it is cut into texts in one way. -/
theorem C88_blocks (lines : List Str) : ∃ ts, Blocks lines ts ∧ ∀ us, Blocks lines us → us = ts := by
  have hne : ∀ {x}, Says (lit "test") x → Says (lit "exit") x → False := by
    intro x h1 h2
    have := (test_says.2 h1).symm.trans (exit_says.2 h2)
    exact absurd this (by decide)
  -- two ways to find the first line that is no text
  have first : ∀ {as bs : List Str} {x y : Str} {cs ds : List Str}, (∀ l ∈ as, TextLine l) → (∀ l ∈ bs, TextLine l) →
      ¬ TextLine x → ¬ TextLine y → as ++ x :: cs = bs ++ y :: ds → as = bs ∧ x = y ∧ cs = ds := by
    intro as
    induction as with
    | nil =>
      intro bs x y cs ds _ hb hx _ h
      cases bs with
      | nil => injection h with h1 h2; exact ⟨rfl, h1, h2⟩
      | cons b bs =>
        injection h with h1 h2
        exact absurd (h1 ▸ hb b (by simp)) hx
    | cons a as ih =>
      intro bs x y cs ds ha hb hx hy h
      cases bs with
      | nil =>
        injection h with h1 h2
        exact absurd (h1 ▸ ha a (by simp)) hy
      | cons b bs =>
        injection h with h1 h2
        obtain ⟨h3, h4, h5⟩ := ih (fun l hl => ha l (by simp [hl])) (fun l hl => hb l (by simp [hl])) hx hy h2
        exact ⟨by rw [h1, h3], h4, h5⟩
  have nt : ∀ {x}, Says (lit "test") x → ¬ TextLine x := fun h h' => h'.1 h
  have ne : ∀ {x}, Says (lit "exit") x → ¬ TextLine x := fun h h' => h'.2 h
  have uniq : ∀ {lines ts us}, Blocks lines ts → Blocks lines us → us = ts := by
    intro lines ts us h
    induction h generalizing us with
    | @ends ls h1 =>
      intro h'
      generalize hq : ls = q at h'
      cases h' with
      | ends _ => rfl
      | @exit ls' x rest _ h4 => subst hq; exact absurd (h1 x (by simp)) (ne h4)
      | @test ls' x rest ts' _ h4 _ => subst hq; exact absurd (h1 x (by simp)) (nt h4)
    | @exit ls x rest h1 h2 =>
      intro h'
      generalize hq : ls ++ x :: rest = q at h'
      cases h' with
      | ends h3 => rfl
      | exit => rfl
      | @test ls' x' rest' ts' h3 h4 h5 =>
        obtain ⟨-, h6, -⟩ := first h1 h3 (ne h2) (nt h4) hq
        subst h6
        exact (hne h4 h2).elim
    | @test ls x rest ts h1 h2 h3 ih =>
      intro h'
      generalize hq : ls ++ x :: rest = q at h'
      cases h' with
      | ends h4 => subst hq; exact absurd (h4 x (by simp)) (nt h2)
      | @exit ls' x' rest' h4 h5 =>
        obtain ⟨-, h6, -⟩ := first h1 h4 (nt h2) (ne h5) hq
        subst h6
        exact (hne h2 h5).elim
      | @test ls' x' rest' ts' h4 h5 h6 =>
        obtain ⟨h7, -, h8⟩ := first h1 h4 (nt h2) (nt h5) hq
        subst h7; subst h8
        rw [ih h6]
  have exist : ∀ (lines : List Str) (acc : List Str), (∀ l ∈ acc, TextLine l) → ∃ ts, Blocks (acc ++ lines) ts := by
    intro lines
    induction lines with
    | nil => intro acc h; exact ⟨_, .ends (by simpa using h)⟩
    | cons l rest ih =>
      intro acc h
      by_cases ht : Says (lit "test") l
      · obtain ⟨ts, hts⟩ := ih [] (by simp)
        exact ⟨_, .test h ht hts⟩
      · by_cases he : Says (lit "exit") l
        · exact ⟨_, .exit h he⟩
        · obtain ⟨ts, hts⟩ := ih (acc ++ [l]) (by
            intro x hx
            rw [List.mem_append, List.mem_singleton] at hx
            rcases hx with hx | rfl
            · exact h x hx
            · exact ⟨ht, he⟩)
          exact ⟨ts, by simpa using hts⟩
  obtain ⟨ts, hts⟩ := exist lines [] (by simp)
  exact ⟨ts, hts, fun us hus => uniq hts hus⟩

theorem repl_text (test : Str → σ → Str × σ) {ls : List Str} (h : ∀ l ∈ ls, TextLine l) (rest : List Str) (buf : Str) (m : σ) :
    repl test (ls ++ rest) buf m = repl test rest (buf ++ typedText ls) m := by
  induction ls generalizing buf with
  | nil => simp [typedText]
  | cons l ls ih =>
    have hl := h l (by simp)
    have h1 : ¬ strip l = lit "exit" := fun h' => hl.2 (exit_says.1 h')
    have h2 : ¬ strip l = lit "test" := fun h' => hl.1 (test_says.1 h')
    rw [List.cons_append, repl, if_neg h1, if_neg h2, ih fun x hx => h x (by simp [hx])]
    simp [typedText]

theorem repl_answers {cfg : Config} {tr : σ → Str → Raw × σ} {lines ts : List Str} (hb : Blocks lines ts) {m m' : σ} {out : Str}
    (ha : Answers cfg.reduceEmptiness (fun m t raw m' => tr m t = (raw, m')) m ts out m') :
    repl (fun t m => ppTest cfg tr t false m) lines [] m = (out, m') := by
  induction hb generalizing m out with
  | @ends ls h1 =>
    cases ha
    have := repl_text (fun t m => ppTest cfg tr t false m) h1 [] []
    rw [List.append_nil] at this
    rw [this]; rfl
  | @exit ls x rest h1 h2 =>
    cases ha
    rw [repl_text _ h1, repl, if_pos (exit_says.2 h2)]
  | @test ls x rest ts h1 h2 h3 ih =>
    have hx := test_says.2 h2
    have hne : ¬ strip x = lit "exit" := by rw [hx]; decide
    rw [repl_text _ h1, repl, if_neg hne, if_pos hx, List.nil_append]
    cases ha with
    | blank h4 h5 =>
      have : ppTest cfg tr (typedText ls) false m = ([], m) := by
        unfold ppTest; rw [if_pos (strip_blank.2 h4)]
      simp only [this, ih h5, List.nil_append]
    | @text _ m1 _ _ raw a _ out h4 h5 h6 h7 =>
      have : ppTest cfg tr (typedText ls) false m = (a, m1) := by
        unfold ppTest
        rw [if_neg fun h => h4 (strip_blank.1 h)]
        simp only [h5, shown_answer h6]
        rfl
      simp only [this, ih h7]

theorem startup_not_blank : ¬ Blank startupText := by
  intro h
  have := h '(' (by decide)
  exact absurd this (by decide)

theorem greet_says {I : Interp σ} {fs : Fs} {p : Process σ} {n : CliNames} {m1 m2 : σ} {a b : Str}
    (h1 : Greeting p.g.cfg.reduceEmptiness (fun m t raw m' => I.text p.g fs m none t = (raw, m')) p.quiet p.mem a m1)
    (h2 : Given p.g.cfg.reduceEmptiness (fun m t raw m' => I.text p.g fs m (some n.source) t = (raw, m')) n.text m1 b m2) :
    greet I fs p n = (a ++ b, m2) := by
  have hg : (if p.quiet then ([], p.mem) else
      let r := ppTest p.g.cfg (fun m t => I.text p.g fs m none t) startupText true p.mem
      let q := ppTest p.g.cfg (fun m t => I.text p.g fs m none t) ['\n'] true r.2
      (r.1 ++ q.1, q.2)) = (a, m1) := by
    generalize p.quiet = q at h1
    cases h1 with
    | quiet => rfl
    | @test _ _ raw a h3 h4 =>
      have hb : ∀ m, ppTest p.g.cfg (fun m t => I.text p.g fs m none t) ['\n'] true m = ([], m) := by
        intro m; unfold ppTest; rw [if_pos (by decide)]
      have hs : ppTest p.g.cfg (fun m t => I.text p.g fs m none t) startupText true p.mem =
          (lit "<-- " ++ (startupText ++ '\n' :: a), m1) := by
        unfold ppTest
        rw [if_neg fun h => startup_not_blank (strip_blank.1 h)]
        simp only [h3, shown_answer h4, if_true]
        simp [List.append_assoc]
      simp only [hs, hb, Bool.false_eq_true, if_false, List.append_nil]
  unfold greet
  simp only [] at hg ⊢
  rw [hg]
  generalize n.text = t at h2
  cases h2 with
  | no => simp
  | @text _ _ _ raw b h3 h4 h5 =>
    have : t.isEmpty = false := by cases t with | nil => exact absurd rfl h3 | cons => rfl
    rw [if_neg (by simp [this])]
    simp only [h4, shown_answer h5]

theorem take_files (n : CliNames) (x : CliOpt) : (n.take x).files = n.files := by cases x <;> rfl

theorem takes_files (opts : List CliOpt) (n : CliNames) : (opts.foldl CliNames.take n).files = n.files := by
  induction opts generalizing n with
  | nil => rfl
  | cons x xs ih => rw [List.foldl_cons, ih, take_files]

theorem namesOf_files (p : Process σ) (files : List Str) (opts : List CliOpt) : (namesOf p files opts).files = files := by
  unfold namesOf
  have := takes_files opts (CliNames.start p files)
  simp only []
  split <;> exact this

/-- **C88**. Without files on the command line: the greeting, the answer to the text given as an option and the answers to the texts typed
    are printed, in this order; the command returns zero, whatever became of the texts, and no file is changed. -/
theorem C88_dialogue (I : Interp σ) (fuel : Nat) {lines ts : List Str} (p : Process σ) (opts : List CliOpt) (o : Oracle) (s : Sys)
    {m1 m2 m3 : σ} {a b c : Str} {n : CliNames} {q : Process σ} (hn : namesOf p [] opts = n) (hq : configured p n = q)
    (h1 : Greeting q.g.cfg.reduceEmptiness (fun m t raw m' => I.text q.g s.fs m none t = (raw, m')) q.quiet p.mem a m1)
    (h2 : Given q.g.cfg.reduceEmptiness (fun m t raw m' => I.text q.g s.fs m (some n.source) t = (raw, m')) n.text m1 b m2)
    (hb : Blocks lines ts)
    (h3 : Answers q.g.cfg.reduceEmptiness (fun m t raw m' => I.text q.g s.fs m none t = (raw, m')) m2 ts c m3) :
    cliRun I fuel lines p (.args [] opts) o s = .done (some ⟨.returns 0, a ++ b ++ c, []⟩) s := by
  have hm : q.mem = p.mem := by rw [← hq]; rfl
  rw [← hm] at h1
  unfold cliRun
  simp only [hn, hq]
  have hf : n.files.isEmpty = true := by rw [← hn, namesOf_files]; rfl
  rw [if_pos hf, greet_says h1 h2]
  simp only [repl_answers hb h3]

/-- **C88**. The premises of `C88_dialogue` can be met for every command line and whatever is typed. -/
theorem C88_always (I : Interp σ) (lines : List Str) (p : Process σ) (n : CliNames) (fs : Fs) : ∃ m1 m2 m3 a b c ts,
    Greeting p.g.cfg.reduceEmptiness (fun m t raw m' => I.text p.g fs m none t = (raw, m')) p.quiet p.mem a m1 ∧
    Given p.g.cfg.reduceEmptiness (fun m t raw m' => I.text p.g fs m (some n.source) t = (raw, m')) n.text m1 b m2 ∧
    Blocks lines ts ∧
    Answers p.g.cfg.reduceEmptiness (fun m t raw m' => I.text p.g fs m none t = (raw, m')) m2 ts c m3 := by
  obtain ⟨ts, hts, -⟩ := C88_blocks lines
  have hg : ∃ a m1, Greeting p.g.cfg.reduceEmptiness (fun m t raw m' => I.text p.g fs m none t = (raw, m')) p.quiet p.mem a m1 := by
    cases p.quiet with
    | true => exact ⟨_, _, .quiet⟩
    | false =>
      obtain ⟨a, ha⟩ := shown_total p.g.cfg.reduceEmptiness (lit "--> ") (I.text p.g fs p.mem none startupText).1
      exact ⟨_, _, .test rfl ha⟩
  obtain ⟨a, m1, ha⟩ := hg
  have ht : ∃ b m2, Given p.g.cfg.reduceEmptiness (fun m t raw m' => I.text p.g fs m (some n.source) t = (raw, m')) n.text m1 b m2 := by
    cases ht : n.text with
    | nil => exact ⟨_, _, .no⟩
    | cons c t =>
      obtain ⟨a, ha⟩ := shown_total p.g.cfg.reduceEmptiness [] (I.text p.g fs m1 (some n.source) (c :: t)).1
      exact ⟨_, _, .text (by simp) rfl ha⟩
  obtain ⟨b, m2, hb⟩ := ht
  have hs : ∀ (ts : List Str) (m : σ), ∃ c m3,
      Answers p.g.cfg.reduceEmptiness (fun m t raw m' => I.text p.g fs m none t = (raw, m')) m ts c m3 := by
    intro ts
    induction ts with
    | nil => intro m; exact ⟨_, _, .nil⟩
    | cons t ts ih =>
      intro m
      by_cases hb : Blank t
      · obtain ⟨c, m3, h⟩ := ih m
        exact ⟨_, _, .blank hb h⟩
      · obtain ⟨a, ha⟩ := shown_total p.g.cfg.reduceEmptiness (lit "--> ") (I.text p.g fs m none t).1
        obtain ⟨c, m3, h⟩ := ih (I.text p.g fs m none t).2
        exact ⟨_, _, .text hb rfl ha h⟩
  obtain ⟨c, m3, hc⟩ := hs ts m2
  exact ⟨m1, m2, m3, a, b, c, ts, ha, hb, hts, hc⟩

/-- **C88**. With files, nothing is read from the user; what is done with the files is that of C80, and what is returned is four times the
    number of the calls that fail: it does not depend on the text given as an option. -/
theorem C88_files (I : Interp σ) (fuel : Nat) (lines : List Str) (p : Process σ) {files : List Str} (hf : files ≠ []) (opts : List CliOpt)
    (o : Oracle) (s s' : Sys) {r : CliRes} (h : cliRun I fuel lines p (.args files opts) o s = .done (some r) s') :
    FileCalls files r.calls ∧ r.ended = .returns (4 * failures r.calls) ∧
      ∀ lines', cliRun I fuel lines' p (.args files opts) o s = .done (some r) s' := by
  have hf' : (namesOf p files opts).files.isEmpty = false := by
    rw [namesOf_files]; cases files with | nil => exact absurd rfl hf | cons => rfl
  unfold cliRun at h ⊢
  simp only [hf', Bool.false_eq_true, if_false] at h ⊢
  suffices h' : FileCalls files r.calls ∧ r.ended = .returns (4 * failures r.calls) from ⟨h'.1, h'.2, fun _ => h⟩
  obtain ⟨q, s1, h1, h2⟩ := bind_inv h
  have h3 := (pure_done h2).1
  cases q with
  | none => cases h3
  | some q =>
    injection h3 with h3
    rw [namesOf_files] at h1
    obtain ⟨h4, h5, -⟩ := C39_status _ _ _ _ _ _ _ _ h1
    subst h3
    exact ⟨h4, congrArg CliEnd.returns h5⟩

/-- **C88**. A single argument `@FILE` stands for the words of that file; there is no such file: the status is 2. -/
theorem C88_response (I : Interp σ) (fuel : Nat) (lines : List Str) (p : Process σ) (fn : Str) (o : Oracle) (ho : NoFault o) (s : Sys) :
    (∀ c, Holds s.fs fn c → ∃ ws s', Words (oneEol c) ws ∧ s'.fs = s.fs ∧
      cli I fuel lines p ['@' :: fn] o s = cliRun I fuel lines p (I.argp ws) o s') ∧
    (s.fs fn = none → ∃ s', s'.fs = s.fs ∧ cli I fuel lines p ['@' :: fn] o s = .done (some ⟨.exits 2, [], []⟩) s') := by
  have h0 : startsWith ('@' :: fn) ['@'] = true := by simp [startsWith, List.isPrefixOf]
  constructor
  · rintro c ⟨f, hf, rfl⟩
    refine ⟨wordsStr (unifyEol f.content), ⟨s.fs, s.n + 2⟩, ?_, rfl, ?_⟩
    · rw [← unifyEol_eq]; exact wordsStr_words _
    · have h1 : openR fn o s = .done () ⟨s.fs, s.n + 1⟩ := by simp [openR, Prog.op, ho s.n, hf]
      have h2 : readFile fn o ⟨s.fs, s.n + 1⟩ = .done (unifyEol f.content) ⟨s.fs, s.n + 2⟩ := by
        simp [readFile, ho (s.n + 1), hf, unifyEol]
      have h3 : parseArguments I.argp ['@' :: fn] o s = .done (I.argp (wordsStr (unifyEol f.content))) ⟨s.fs, s.n + 2⟩ := by
        unfold parseArguments
        simp only [h0, if_true, List.drop_succ_cons, List.drop_zero]
        show Prog.tryIO (Prog.bind (openR fn) fun _ => Prog.bind (readFile fn) fun t => Prog.pure _) _ o s = _
        simp only [Prog.bind, Prog.tryIO, h1, h2, Prog.pure]
      unfold cli
      rw [bind_done h3]
  · intro hf
    refine ⟨⟨s.fs, s.n + 1⟩, rfl, ?_⟩
    have h1 : openR fn o s = .raised ⟨s.fs, s.n + 1⟩ := by simp [openR, Prog.op, ho s.n, hf]
    have h3 : parseArguments I.argp ['@' :: fn] o s = .done (.exit 2) ⟨s.fs, s.n + 1⟩ := by
      unfold parseArguments
      simp only [h0, if_true, List.drop_succ_cons, List.drop_zero]
      show Prog.tryIO (Prog.bind (openR fn) fun _ => Prog.bind (readFile fn) fun t => Prog.pure _) _ o s = _
      simp only [Prog.bind, Prog.tryIO, h1, Prog.pure]
    unfold cli
    rw [bind_done h3]
    rfl

/-- **C88**. Any other arguments are passed to `argparse` as they are; `@FILE` has no meaning among several. -/
theorem C88_arguments (I : Interp σ) (fuel : Nat) (lines : List Str) (p : Process σ) (arglist : List Str)
    (h : ∀ fn, arglist ≠ ['@' :: fn]) : cli I fuel lines p arglist = cliRun I fuel lines p (I.argp arglist) := by
  have : parseArguments I.argp arglist = Prog.pure (I.argp arglist) := by
    unfold parseArguments
    split
    · next a =>
      rw [if_neg]
      intro h'
      cases a with
      | nil => simp [startsWith] at h'
      | cons c t =>
        have : '@' = c := by simpa [startsWith, List.isPrefixOf] using h'
        exact h t (by rw [this])
    · rfl
  unfold cli
  rw [this]
  rfl

/-- **C88**. The status of the process: the script passes on four times the number of failing files (modulo 256). Started as a
    package (the installed command, `python -m yupp`) the status is zero although files fail; only errors in the arguments are told. -/
theorem C88_status (I : Interp σ) (fuel : Nat) (lines : List Str) (p : Process σ) {files : List Str} (hf : files ≠ []) (opts : List CliOpt)
    (o : Oracle) (s s' : Sys) {r : CliRes} (h : cliRun I fuel lines p (.args files opts) o s = .done (some r) s') :
    processStatus .script r.ended = 4 * failures r.calls % 256 ∧ processStatus .package r.ended = 0 ∧
      processStatus .subpackage r.ended = 0 ∧ ∀ e n, n < 256 → processStatus e (.exits n) = n := by
  obtain ⟨-, h2, -⟩ := C88_files I fuel lines p hf opts o s s' h
  rw [h2]
  refine ⟨rfl, rfl, rfl, fun e n hn => ?_⟩
  cases e <;> exact Nat.mod_eq_of_lt hn

/-! ## The options -/

/-- An option whose last value counts. -/
theorem takes_last {α : Type} (get : CliNames → α) (f : CliOpt → Option α) (h : ∀ n x, get (n.take x) = (f x).getD (get n)) (opts : List CliOpt)
    (n : CliNames) : get (opts.foldl CliNames.take n) = lastOf f (get n) opts := by
  induction opts generalizing n with
  | nil => rfl
  | cons x xs ih =>
    rw [List.foldl_cons, ih, h]
    unfold lastOf
    cases hx : f x with
    | none => rw [List.filterMap_cons_none hx]; rfl
    | some v =>
      rw [List.filterMap_cons_some hx, List.getLast?_cons]
      cases (List.filterMap f xs).getLast? <;> rfl

/-- An option whose values are collected. -/
theorem takes_all {α : Type} (get : CliNames → List α) (f : CliOpt → Option α) (h : ∀ n x, get (n.take x) = get n ++ (f x).toList)
    (opts : List CliOpt) (n : CliNames) : get (opts.foldl CliNames.take n) = get n ++ opts.filterMap f := by
  induction opts generalizing n with
  | nil => simp
  | cons x xs ih =>
    rw [List.foldl_cons, ih, h]
    cases hx : f x with
    | none => rw [List.filterMap_cons_none hx]; simp
    | some v => rw [List.filterMap_cons_some hx]; simp

theorem takes_quiet (opts : List CliOpt) (n : CliNames) : (opts.foldl CliNames.take n).quiet = (n.quiet || decide (.quiet ∈ opts)) := by
  induction opts generalizing n with
  | nil => simp
  | cons x xs ih =>
    rw [List.foldl_cons, ih]
    cases x <;> simp [CliNames.take]

theorem takes_readOnly (opts : List CliOpt) (n : CliNames) :
    (opts.foldl CliNames.take n).readOnly = (n.readOnly && decide (.noReadOnly ∉ opts)) := by
  induction opts generalizing n with
  | nil => simp
  | cons x xs ih =>
    rw [List.foldl_cons, ih]
    cases x <;> simp [CliNames.take]

/-- **C89**. The configuration a command line comes to. Of a switch or value given several times, the last one counts; directories and
    constants are collected in their order; what is not given has its default, whatever commands were run before in the process. Two
    options stay for later commands: `--quiet` and `--no-read-only` cannot be taken back. Without files nothing is browsed. -/
theorem C89_options (p : Process σ) (files : List Str) (opts : List CliOpt) {n : CliNames} {q : Process σ} (hn : namesOf p files opts = n)
    (hq : configured p n = q) :
    q.g.cfg.trimAppIndent = lastOf trimOf true opts ∧
    q.g.cfg.reduceEmptiness = lastOf reduceOf true opts ∧
    q.g.cfg.browse = (decide (files ≠ []) && lastOf browseOf false opts) ∧
    (lastOf skipOf 0 opts ≤ 3 → q.g.cfg.skipComments = lastOf skipOf 0 opts) ∧
    q.g.sh.outputDir = lastOf outputDirOf [] opts ∧
    q.g.define = opts.filterMap defineOf ∧
    q.g.directory = opts.filterMap directoryOf ∧
    q.g.sh.readOnly = (p.g.sh.readOnly && decide (.noReadOnly ∉ opts)) ∧
    q.quiet = (p.quiet || decide (.quiet ∈ opts)) ∧
    n.text = lastOf givenText [] opts ∧ n.source = lastOf givenSource [] opts ∧
    q.g.table = p.g.table ∧ q.mem = p.mem := by
  have hb : ∀ {m : CliNames}, { opts.foldl CliNames.take (.start p files) with browse := n.browse } = m → n = m := by
    rintro m rfl
    rw [← hn]
    unfold namesOf
    simp only []
    split <;> rfl
  have hn' := hb rfl
  have hbr : n.browse = (decide (files ≠ []) && lastOf browseOf false opts) := by
    have h1 : (opts.foldl CliNames.take (.start p files)).browse = lastOf browseOf false opts :=
      takes_last (·.browse) browseOf (by intro n x; cases x <;> rfl) opts _
    rw [← hn]
    unfold namesOf
    simp only [takes_files]
    cases files with
    | nil => rfl
    | cons f fs => simpa [CliNames.start] using h1
  have e1 := takes_last (·.trim) trimOf (by intro n x; cases x <;> rfl) opts (.start p files)
  have e2 := takes_last (·.reduce) reduceOf (by intro n x; cases x <;> rfl) opts (.start p files)
  have e3 := takes_last (·.skipComments) skipOf (by intro n x; cases x <;> rfl) opts (.start p files)
  have e4 := takes_last (·.outputDir) outputDirOf (by intro n x; cases x <;> rfl) opts (.start p files)
  have e5 := takes_all (·.define) defineOf (by intro n x; cases x <;> simp [CliNames.take, defineOf]) opts (.start p files)
  have e6 := takes_all (·.directory) directoryOf (by intro n x; cases x <;> simp [CliNames.take, directoryOf]) opts (.start p files)
  have e7 := takes_readOnly opts (.start p files)
  have e8 := takes_quiet opts (.start p files)
  have e9 := takes_last (·.text) givenText (by intro n x; cases x <;> rfl) opts (.start p files)
  have e10 := takes_last (·.source) givenSource (by intro n x; cases x <;> rfl) opts (.start p files)
  have d : ∀ k, n.dict k = ([
      (lit "pp_trim_app_indent", PyOpt.bool n.trim), (lit "pp_reduce_emptiness", .bool n.reduce), (lit "pp_browse", .bool n.browse),
      (lit "pp_skip_comments", .int n.skipComments), (lit "pp_define", .list n.define), (lit "directory", .list n.directory),
      (lit "read_only", .bool n.readOnly), (lit "quiet", .bool n.quiet)] : List (Str × PyOpt)).lookup k := fun _ => rfl
  subst hq
  have f1 : n.trim = lastOf trimOf true opts := by rw [hn']; exact e1
  have f2 : n.reduce = lastOf reduceOf true opts := by rw [hn']; exact e2
  have f3 : n.skipComments = lastOf skipOf 0 opts := by rw [hn']; exact e3
  refine ⟨?_, ?_, ?_, ?_, ?_, ?_, ?_, ?_, ?_, ?_, ?_, rfl, rfl⟩
  · exact f1
  · exact f2
  · exact hbr
  · intro h3
    change PyOpt.skip (.int n.skipComments) = _
    rw [f3]
    generalize lastOf skipOf 0 opts = k at h3
    obtain rfl | rfl | rfl | rfl : k = 0 ∨ k = 1 ∨ k = 2 ∨ k = 3 := by omega
    all_goals rfl
  · change n.outputDir = _
    rw [hn']; exact e4
  · change n.define = _
    rw [hn']; simpa [CliNames.start] using e5
  · change n.directory = _
    rw [hn']; simpa [CliNames.start] using e6
  · change n.readOnly = _
    rw [hn']; exact e7
  · change n.quiet = _
    rw [hn']; exact e8
  · rw [hn']; exact e9
  · rw [hn']; exact e10

/-- **C89**. A configuration script that sets the same options gives the same configuration to an imported module, the directory of the
    outputs aside, which a script cannot set. -/
theorem C89_like_script (p : Process σ) (files : List Str) (opts : List CliOpt) {n : CliNames} (hn : namesOf p files opts = n) (i : Import)
    (hc : commonScript i = none) (ho : ownScript i = some fun c k => (n.dict k).or (c k)) (g : Global) {g' : Global} (h : i.run g = some g') :
    g'.cfg = (configured p n).g.cfg ∧ g'.sh.readOnly = (configured p n).g.sh.readOnly ∧ g'.define = (configured p n).g.define ∧
      g'.directory = (configured p n).g.directory ∧ g'.sh.outputDir = [] := by
  obtain ⟨c, h1, h2, h3, h4, h5, -⟩ := run_inv h
  have hc' : i.scripts ([] ++ eYucfg) = none := hc
  have ho' : i.scripts ((splitext i.fn).1 ++ eYucfg) = some fun c k => (n.dict k).or (c k) := ho
  have hfin : ∀ k, finalCtx i.scripts i.fn k = (n.dict k).or (startCtx k) := by
    intro k
    unfold finalCtx execScript
    rw [hc', ho']
  have hck : ∀ k, k ∈ [lit "pp_trim_app_indent", lit "pp_reduce_emptiness", lit "pp_browse", lit "pp_skip_comments", lit "pp_define",
      lit "directory", lit "read_only"] → c k = n.dict k := by
    intro k hk
    unfold parseYuconfig cfgOf at h1
    split at h1
    case isFalse => cases h1
    case isTrue =>
      cases h1
      simp only [hfin]
      simp only [List.mem_cons, List.not_mem_nil, or_false] at hk
      rcases hk with rfl | rfl | rfl | rfl | rfl | rfl | rfl <;> rfl
  rw [h2, h3, h4, h5]
  have g1 := hck (lit "pp_trim_app_indent") (by simp)
  have g2 := hck (lit "pp_reduce_emptiness") (by simp)
  have g3 := hck (lit "pp_browse") (by simp)
  have g4 := hck (lit "pp_skip_comments") (by simp)
  have g5 := hck (lit "pp_define") (by simp)
  have g6 := hck (lit "directory") (by simp)
  have g7 := hck (lit "read_only") (by simp)
  simp only [ppConfigure, configured, Ctx.getD, g1, g2, g3, g4, g5, g6, g7, and_self]

/-! ## `translate` -/

theorem file_opened {o : Oracle} (ho : NoFault o) {fn : Str} {s : Sys} {f : File} (hf : s.fs fn = some f) :
    (Prog.tryIO (do openR fn; return true) (Prog.pure false) : Prog Bool) o s = .done true ⟨s.fs, s.n + 1⟩ := by
  have h1 : openR fn o s = .done () ⟨s.fs, s.n + 1⟩ := by simp [openR, Prog.op, ho s.n, hf]
  show Prog.tryIO (Prog.bind (openR fn) fun _ => Prog.pure true) (Prog.pure false) o s = _
  simp only [Prog.bind, Prog.tryIO, h1, Prog.pure]

theorem file_not_opened {o : Oracle} (ho : NoFault o) {fn : Str} {s : Sys} (hf : s.fs fn = none) :
    (Prog.tryIO (do openR fn; return true) (Prog.pure false) : Prog Bool) o s = .done false ⟨s.fs, s.n + 1⟩ := by
  have h1 : openR fn o s = .raised ⟨s.fs, s.n + 1⟩ := by simp [openR, Prog.op, ho s.n, hf]
  show Prog.tryIO (Prog.bind (openR fn) fun _ => Prog.pure true) (Prog.pure false) o s = _
  simp only [Prog.bind, Prog.tryIO, h1, Prog.pure]

/-- Translating with `procFile` is one pass of the command, apart from what is returned. -/
theorem procFile_pass {o : Oracle} (ho : NoFault o) (cfg sh pc json) (eng : Engine) (p : Nat) {fn : Str} {s : Sys} {f : File}
    (hf : s.fs fn = some f) (hu : pc.force = true ∨ ¬ UpToDate s.fs pc.dependency fn (outputFn sh fn)) {ok rept : Bool} {s' : Sys}
    (h : ppFile cfg sh json eng p fn o s = .done (ok, rept) s') :
    procFile cfg sh pc json eng p fn o s = .done (ok, some (outputFn sh fn)) s' := by
  unfold ppFile at h
  unfold procFile
  rw [bind_done (file_opened ho hf)] at h ⊢
  simp only [if_true] at h ⊢
  unfold procOpened
  rw [bind_done (skipCheck_none (s := ⟨s.fs, s.n + 1⟩) hu)]
  simp only []
  obtain ⟨r, s1, h1, h2⟩ := bind_inv h
  rw [bind_done h1]
  obtain ⟨h3, rfl⟩ := pure_done h2
  injection h3 with h3 _
  rw [h3]
  rfl

/-- **C90**. `translate` of a file that is not there fails, and gives no name. -/
theorem C90_missing {o : Oracle} (ho : NoFault o) (cfg sh pc json) (eng : Engine) (p : Nat) {fn : Str} {s : Sys} (hf : s.fs fn = none) :
    ∃ s', procFile cfg sh pc json eng p fn o s = .done (false, none) s' ∧ s'.fs = s.fs := by
  refine ⟨⟨s.fs, s.n + 1⟩, ?_, rfl⟩
  unfold procFile
  rw [bind_done (file_not_opened ho hf)]
  rfl

/-- **C90**. If the output is up to date and the translation not forced, nothing is done. -/
theorem C90_up_to_date {o : Oracle} (ho : NoFault o) (cfg sh pc json) (eng : Engine) (p : Nat) {fn : Str} {s : Sys} {f : File}
    (hf : s.fs fn = some f) (hu : UpToDate s.fs pc.dependency fn (outputFn sh fn)) (hp : pc.force = false) :
    ∃ s', procFile cfg sh pc json eng p fn o s = .done (true, some (outputFn sh fn)) s' ∧ s'.fs = s.fs := by
  obtain ⟨g, hg, hall⟩ := hu
  have hsk : skipCheck pc fn (outputFn sh fn) o ⟨s.fs, s.n + 1⟩ = .done (some (unifyEol g.content)) ⟨s.fs, s.n + 2⟩ := by
    unfold skipCheck
    rw [if_neg (by simp [hp])]
    simp only [hg]
    rw [if_pos (skip_cond.2 hall)]
    simp only [readFile, ho (s.n + 1), hg]
    rfl
  refine ⟨⟨s.fs, s.n + 2⟩, ?_, rfl⟩
  unfold procFile
  rw [bind_done (file_opened ho hf)]
  simp only [if_true]
  unfold procOpened
  rw [bind_done hsk]
  rfl

/-- **C90**. Otherwise one pass is made. If it comes to a text, this is what is left in the file the program has named, or in the one
    named after the source. The name that is returned is always the latter, and other passes the program asks for (`run.rept`)
    are not made. -/
theorem C90_text {o : Oracle} (ho : NoFault o) (cfg sh pc json) (eng : Engine) (p : Nat) {fn c : Str} {s : Sys} (hf : Holds s.fs fn c)
    (hu : pc.force = true ∨ ¬ UpToDate s.fs pc.dependency fn (outputFn sh fn)) {run : Run} {u out : Str}
    (he : eng s.fs p fn (outputFn sh fn) (oneEol c) = run)
    (ht : FinalText cfg.reduceEmptiness run.raw u) (hc : Chosen run.outputFile (outputFn sh fn) out) :
    ∃ s', procFile cfg sh pc json eng p fn o s = .done (true, some (outputFn sh fn)) s' ∧ Holds s'.fs out u ∧
      ∀ x, ¬ OwnFile out x → s'.fs x = s.fs x := by
  obtain ⟨f, hf, rfl⟩ := hf
  rw [← unifyEol_eq] at he
  obtain ⟨s', h1, h2⟩ := pass_text ho cfg sh json eng p hf he ht hc
  exact ⟨s', procFile_pass ho cfg sh pc json eng p hf hu h1, h2⟩

/-- **C90**. If the pass fails, so does `translate`; no file is changed but the one for the tree. -/
theorem C90_fails {o : Oracle} (ho : NoFault o) (cfg sh pc json) (eng : Engine) (p : Nat) {fn c : Str} {s : Sys} (hf : Holds s.fs fn c)
    (hu : pc.force = true ∨ ¬ UpToDate s.fs pc.dependency fn (outputFn sh fn)) {run : Run}
    (he : eng s.fs p fn (outputFn sh fn) (oneEol c) = run) (hr : run.raw = .raised ∨ ∃ t, run.raw = .tree t) :
    ∃ s', procFile cfg sh pc json eng p fn o s = .done (false, some (outputFn sh fn)) s' ∧
      ∀ x, x ≠ treeFile (outputFn sh fn) → s'.fs x = s.fs x := by
  obtain ⟨f, hf, rfl⟩ := hf
  rw [← unifyEol_eq] at he
  obtain ⟨s', h1, h2⟩ := pass_fails ho cfg sh json eng p hf he hr
  exact ⟨s', procFile_pass ho cfg sh pc json eng p hf hu h1, h2⟩

/-! ## Concrete cases -/

/-- A translator for examples: the text is copied, the number of translations kept; `!` alone cannot be translated. -/
def copying : Interp Nat where
  argp
    | [w] => .args [] [.text w]
    | _ => .args [] [.quiet, .reduce true, .reduce false]
  text _ _ m _ t := if t = ['!', '\n'] then (.raised, m + 1) else (.str t, m + 1)
  eng _ _ := fun _ _ _ _ t => { raw := .str t, outputFile := some (lit "named"), rept := true }
  json _ := []

def freshProcess : Process Nat := { g := { table := fun _ => none }, mem := 0 }

/-- Two texts are typed, the second of which is wrong, and a third without `test`. -/
example : Blocks [lit "a", lit "b ", lit " test", lit "!", lit "test", lit "c", lit "exit", lit "test"] [lit "a\nb \n", lit "!\n"] := by
  refine .test (ls := [lit "a", lit "b "]) ?_ (test_says.1 (by decide)) (.test (ls := [lit "!"]) ?_ (test_says.1 (by decide))
    (.exit (ls := [lit "c"]) ?_ (exit_says.1 (by decide))))
  all_goals
    intro l hl
    simp only [List.mem_cons, List.not_mem_nil, or_false] at hl
    refine ⟨fun h => ?_, fun h => ?_⟩
    · have := test_says.2 h
      rcases hl with rfl | rfl <;> revert this <;> decide
    · have := exit_says.2 h
      rcases hl with rfl | rfl <;> revert this <;> decide

example : (match cli copying 9 [lit "a", lit "b ", lit " test", lit "!", lit "test", lit "c", lit "exit", lit "test"] freshProcess [] calm ⟨fun _ => none, 0⟩ with
    | .done (some r) _ => (decide (r.ended = .returns 0)) && r.printed == lit "\n--> a\nb \n\n* OK *\n\n"
    | _ => false) = true := by decide +kernel

/-- The words of a response file. -/
example : (match cli copying 9 [lit "exit"] { freshProcess with quiet := true } [lit "@args"] calm ⟨oneFile "args" " x\n", 0⟩ with
    | .done (some r) _ => r.printed == lit "\nx\n\n* OK *\n"
    | _ => false) = true := by decide +kernel

/-- The program has named its file and asks for another pass; `translate` makes one and tells another name. -/
example : (match procFile { reduceEmptiness := false } {} {} (fun _ => []) (copying.eng freshProcess.g 0) 0 (lit "a.yu-c") calm ⟨oneFile "a.yu-c" "text", 0⟩ with
    | .done r s => decide (r = (true, some (lit "a.c"))) && (s.fs (lit "a.c")).isNone && (s.fs (lit "named")).isSome
    | _ => false) = true := by decide +kernel

end Yupp
