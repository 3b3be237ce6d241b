import Verif.Lemmas.Parse
import Verif.Lemmas.ParseMono
/-!
# The parser: termination, progress, positions, imports (C17, C18, C19, C22, C23)
-/

namespace Yupp

theorem good_result {α : Type} {T : Prop} {m : PM α} {st : PSt} {Q : α → PSt → Prop} (h : PM.Sat T m st Q)
    (ht : ¬T) : m st ≠ .timeout := by
  intro hm
  unfold PM.Sat at h
  rw [hm] at h
  exact ht h

theorem sat_ok {α : Type} {T : Prop} {m : PM α} {st : PSt} {Q : α → PSt → Prop} (h : PM.Sat T m st Q)
    {a : α} {st' : PSt} (hm : m st = .ok (a, st')) : Q a st' := by
  unfold PM.Sat at h
  rw [hm] at h
  exact h

/-- The computation returns, and a check of what it returns succeeds. -/
def okWith (r : PRes (α × PSt)) (f : α → PSt → Bool) : Bool :=
  match r with
  | .ok (a, st) => f a st
  | _ => false

theorem okWith_spec {r : PRes (α × PSt)} {f : α → PSt → Bool} (h : okWith r f = true) :
    ∃ a st, r = .ok (a, st) ∧ f a st = true := by
  unfold okWith at h
  split at h
  · exact ⟨_, _, rfl, h⟩
  · cases h

/-- If enough levels do not give up, they all give the same result. -/
theorem stable {α : Type} (f : Nat → PM α) (hf : ∀ m n, m ≤ n → (f m).Le (f n)) (st : PSt) (N : Nat)
    (h : f N st ≠ .timeout) : ∃ r, r ≠ .timeout ∧ ∀ n, N ≤ n → f n st = r := by
  refine ⟨f N st, h, fun n hn => ?_⟩
  rcases hf N n hn st with h' | h'
  · exact absurd h' h
  · exact h'.symm

theorem noImport (txt : Str) (h : ∀ k, ¬ ['(', '$', 'i', 'm', 'p', 'o', 'r', 't'] <+: txt.drop k) :
    ImportsOnly [] txt := fun k hk => absurd hk (h k)

theorem tame_nil (e : PEnv) (st : PSt) : Tame e [] st :=
  ⟨fun _ h => (List.not_mem_nil h).elim, fun h => absurd rfl h, fun h => absurd rfl h⟩

/-! ## C17 -/

/-- C17. Parsing a registered text without `($import` ends with a tree or an exception: there is one
    result, and every parser allowed a nesting (of rules and rounds of loops) linear in the length of
    the text reaches it. -/
theorem C17_parse_terminates (e : PEnv) (st : PSt) (file : Str) (d : Decl) (txt : Str)
    (hf : st.world.find file = some (d, txt))
    (hi : ∀ k, ¬ ['(', '$', 'i', 'm', 'p', 'o', 'r', 't'] <+: txt.drop k) :
    ∃ r, r ≠ .timeout ∧ ∀ n, 2 * txt.length + 2 ≤ n → (P e n).parse file st = r := by
  refine stable (fun n => (P e n).parse file) (fun m n h => (P_le e h).parse file) st _ ?_
  refine good_result ((P_good e [] (2 * txt.length + 2)).parse file st) (fun hb => ?_)
  have htx : textOf st file = txt := by unfold textOf; rw [hf]
  rw [htx] at hb
  have := hb (noImport txt hi) (tame_nil e st)
  simp only [unread, List.filter_nil, List.map_nil, List.sum_nil] at this
  omega

/-- C17. The same for a single form, and for a text in any kind of brackets. -/
theorem C17_form_terminates (e : PEnv) (st : PSt) (s : Src)
    (hi : ∀ k, ¬ ['(', '$', 'i', 'm', 'p', 'o', 'r', 't'] <+: s.txt.drop k) :
    ∃ r, r ≠ .timeout ∧ ∀ n, 2 * s.txt.length + 1 ≤ n → (P e n).form s st = r := by
  refine stable (fun n => (P e n).form s) (fun m n h => (P_le e h).form s) st _ ?_
  refine good_result ((P_good e [] (2 * s.txt.length + 1)).form s st) (fun hb => ?_)
  have := hb (noImport s.txt hi) (tame_nil e st)
  simp [unread] at this
  omega

theorem C17_text_terminates (e : PEnv) (st : PSt) (stop : Stop) (s : Src)
    (hi : ∀ k, ¬ ['(', '$', 'i', 'm', 'p', 'o', 'r', 't'] <+: s.txt.drop k) :
    ∃ r, r ≠ .timeout ∧ ∀ n, 2 * s.txt.length + 1 ≤ n → (P e n).text stop { sou := s } st = r := by
  refine stable (fun n => (P e n).text stop { sou := s }) (fun m n h => (P_le e h).text stop _) st _ ?_
  refine good_result ((P_good e [] (2 * s.txt.length + 1)).text stop { sou := s } st) (fun hb => ?_)
  have := hb (noImport s.txt hi) (tame_nil e st)
  simp [unread] at this
  omega

/-- An unfinished form: the parser ends, with an exception. -/
example : ∀ n, 18 ≤ n → (P { inputFile := lit "a" } n).parse (lit "a")
    (PSt.start { inputFile := lit "a" } none (lit "x ($f (1")) = .err := by
  intro n hn
  obtain ⟨r, hr, h⟩ := C17_parse_terminates { inputFile := lit "a" }
    (PSt.start { inputFile := lit "a" } none (lit "x ($f (1")) (lit "a") (.path none) (lit "x ($f (1") rfl
    (by
      intro k hk
      have h8 : k < 9 := by
        have := hk.length_le
        rw [List.length_drop] at this
        have h9 : (lit "x ($f (1").length = 8 := by decide
        rw [h9] at this
        simp only [List.length_cons, List.length_nil] at this
        omega
      have : ∀ k, k < 9 → ¬ ['(', '$', 'i', 'm', 'p', 'o', 'r', 't'] <+: (lit "x ($f (1").drop k := by
        decide
      exact this k h8 hk)
  rw [h n (Nat.le_trans (by decide) hn), ← h 18 (by decide)]
  have : (match (P { inputFile := lit "a" } 18).parse (lit "a")
    (PSt.start { inputFile := lit "a" } none (lit "x ($f (1")) with
    | .err => true
    | _ => false) = true := by decide +kernel
  split at this
  · assumption
  · cases this

/-! ## C18 -/

/-- What a rule leaves is a rest of its text: nothing is taken if it does not match, at least one
    character if it does. -/
def Consumes (rule : Src → PM (Src × Option α)) : Prop :=
  ∀ s st r leg st', rule s st = .ok ((r, leg), st') →
    ∃ k, k ≤ s.txt.length ∧ r = s.drop k ∧ (leg = none ↔ k = 0)

theorem consumes_of {α : Type} {e : PEnv} {rule : Src → PM (Src × Option α)} {lv : α → List Src}
    (h : ∀ s st, ∃ T, PM.Sat T (rule s) st (RuleQ e lv s st)) : Consumes rule := by
  intro s st r leg st' hr
  obtain ⟨T, hT⟩ := h s st
  obtain ⟨-, hq⟩ := sat_ok hT hr
  cases leg with
  | none =>
    cases (hq : r = s)
    exact ⟨0, Nat.zero_le _, (Src.drop_zero _).symm, by simp⟩
  | some x =>
    obtain ⟨⟨k, h0, hk, rfl⟩, -⟩ := hq
    exact ⟨k, hk, rfl, by simp; omega⟩

/-- C18. Every rule that can fail to match takes a piece of the text: nothing if it does not match,
    something if it does. -/
theorem C18_rules_consume (e : PEnv) (n : Nat) :
    Consumes (P e n).form ∧ Consumes (psFormer e (P e n)) ∧ Consumes (psLForm (P e n)) ∧
    Consumes (psSet (P e n)) ∧ Consumes (psLet (P e n)) ∧ Consumes (psImport e (P e n)) ∧
    Consumes psMacro ∧ Consumes (psEmit (P e n)) ∧ Consumes (psApplication (P e n)) ∧
    Consumes (psLambda (P e n)) ∧ Consumes (psCode (P e n)) ∧ Consumes (psInfix (P e n)) ∧
    Consumes (psList (P e n)) ∧ Consumes psVar ∧ Consumes (psValue e) ∧ Consumes (psQuote e) ∧
    Consumes (psNumber e) ∧ Consumes psComment ∧ Consumes (psRemark e) := by
  have g := P_good e [] n
  exact ⟨consumes_of fun s st => ⟨_, g.form s st⟩, consumes_of fun s st => ⟨_, rule_former g s st⟩,
    consumes_of fun s st => ⟨_, rule_lform g s st⟩, consumes_of fun s st => ⟨_, rule_set g s st⟩,
    consumes_of fun s st => ⟨_, rule_let g s st⟩, consumes_of fun s st => ⟨_, rule_import g s st⟩,
    consumes_of fun s st => ⟨True, rule_macro (e := e) s st⟩,
    consumes_of fun s st => ⟨_, rule_emit g s st⟩, consumes_of fun s st => ⟨_, rule_application g s st⟩,
    consumes_of fun s st => ⟨_, rule_lambda g s st⟩, consumes_of fun s st => ⟨_, rule_code g s st⟩,
    consumes_of fun s st => ⟨_, rule_infix g s st⟩, consumes_of fun s st => ⟨_, rule_list g s st⟩,
    consumes_of fun s st => ⟨True, rule_var (e := e) s st⟩,
    consumes_of fun s st => ⟨True, rule_value (e := e) s st⟩,
    consumes_of fun s st => ⟨True, rule_quote (e := e) s st⟩,
    consumes_of fun s st => ⟨True, rule_number (e := e) s st⟩,
    consumes_of fun s st => ⟨True, rule_comment (e := e) s st⟩,
    consumes_of fun s st => ⟨True, rule_remark (e := e) s st⟩⟩

/-- C18. A text leaves a rest of what it was started on. -/
theorem C18_text_consumes (e : PEnv) (n : Nat) (stop : Stop) (s : Src) (st st' : PSt) (r : Src)
    (ast : List Node) (h : (P e n).text stop { sou := s } st = .ok ((r, ast), st')) :
    ∃ k, k ≤ s.txt.length ∧ r = s.drop k :=
  (sat_ok ((P_good e [] n).text stop { sou := s } st) h).2.1

/-- A form matches and takes 7 of 9 characters, the blank after it included. -/
example : okWith ((P { inputFile := [] } 9).form { txt := lit "(a  b) c " } {})
    (fun r _ => r.1 = ({ txt := lit "(a  b) c " } : Src).drop 7 && r.2.isSome) = true := by decide +kernel

/-! ## C19 -/

/-- C19. If the registered texts agree with the files, every fragment of the tree with a location is what
    the table of sources holds at that location, also for the fragments of imported texts. -/
theorem C19_positions (e : PEnv) (n : Nat) (file : Str) (st st' : PSt) (ast : List Node)
    (ha : Agree e st) (h : (P e n).parse file st = .ok (ast, st')) (y : Src) (hy : y ∈ srcsList ast)
    (l : Loc) (hl : y.loc = some l) :
    ∃ d txt, st'.world.find l.file = some (d, txt) ∧ ∃ k : Nat, l.pos = k ∧
      k + y.txt.length ≤ txt.length ∧ (txt.drop k).take y.txt.length = y.txt := by
  obtain ⟨hg, hf⟩ := sat_ok ((P_good e [] n).parse file st) h
  obtain ⟨d, txt, hm, k, h1, h2, h3⟩ := (hf y hy).1 l hl
  cases hw : st'.world.find l.file with
  | none =>
    have := mem_find hm
    rw [hw] at this
    cases this
  | some r =>
    obtain ⟨d', txt'⟩ := r
    have := (hg.agree ha).uniq _ _ _ _ _ (find_mem hw) hm
    subst this
    exact ⟨d', txt', rfl, k, h1, h2, h3.symm⟩

/-- C19. Every fragment of the tree has a location, except empty quotes, C literals and the `...` of a parameter list. -/
theorem C19_placed (e : PEnv) (n : Nat) (file : Str) (st st' : PSt) (ast : List Node)
    (h : (P e n).parse file st = .ok (ast, st')) (y : Src) (hy : y ∈ srcsList ast) (hl : y.loc = none) :
    Unplaced y.txt :=
  ((sat_ok ((P_good e [] n).parse file st) h).2 y hy).2 hl

/-- C19. The tables agree when a translation starts, if no library is named by a number, the input file
    is not named by a number or `<null>` either and is not also found, with another text, as a
    library. -/
theorem C19_start (e : PEnv) (input : Option Str) (text : Str) (hn : ∀ m, e.readLib (natStr m) = none)
    (hi : ∀ m, e.inputFile ≠ natStr m) (h0 : e.readLib (lit "<null>") = none)
    (hne : e.inputFile ≠ lit "<null>")
    (hs : ∀ p t, e.readLib e.inputFile = some (p, t) → unifyEol text = unifyEol t) :
    Agree e (PSt.start e input text) where
  same := by
    intro f d t hm p t' hr
    simp only [PSt.start, List.mem_cons, List.not_mem_nil, or_false, Prod.mk.injEq] at hm
    rcases hm with ⟨rfl, rfl, rfl⟩ | ⟨rfl, rfl, rfl⟩
    · exact hs p t' hr
    · rw [h0] at hr; cases hr
  num := by
    intro f d t hm m hf
    simp only [PSt.start, List.mem_cons, List.not_mem_nil, or_false, Prod.mk.injEq] at hm
    rcases hm with ⟨rfl, -, -⟩ | ⟨rfl, -, -⟩
    · exact absurd hf (hi m)
    · exact absurd hf.symm (natStr_ne_null m)
  lib := hn
  uniq := by
    intro f d t d' t' h1 h2
    simp only [PSt.start, List.mem_cons, List.not_mem_nil, or_false, Prod.mk.injEq] at h1 h2
    rcases h1 with ⟨rfl, -, rfl⟩ | ⟨rfl, -, rfl⟩ <;> rcases h2 with ⟨h, -, rfl⟩ | ⟨h, -, rfl⟩
    · rfl
    · exact absurd h hne
    · exact absurd h.symm hne
    · rfl

/-- Without the last assumption of `C19_start` the claim is false: the input file `b` includes a library
    also called `b`; the fragment `abc` of the input is looked up in the library. -/
theorem C19_same_name_clash :
    ∃ (e : PEnv) (st st' : PSt) (n : Nat) (ast : List Node) (y : Src) (l : Loc) (d : Decl) (txt : Str),
      st = PSt.start e (some (lit "x/b")) (lit "abc($import \"b\")") ∧
      (P e n).parse e.inputFile st = .ok (ast, st') ∧ y ∈ srcsList ast ∧ y.loc = some l ∧
      st'.world.find l.file = some (d, txt) ∧ (txt.drop l.pos.toNat).take y.txt.length ≠ y.txt := by
  let e : PEnv := { inputFile := lit "b", readLib := fun _ => some (lit "lib/b", lit "z"),
                    unq := fun s => s.tail.dropLast }
  have h : okWith ((P e 40).parse e.inputFile (PSt.start e (some (lit "x/b")) (lit "abc($import \"b\")")))
      (fun ast st => ({ txt := lit "abc", loc := some ⟨lit "b", 0⟩ } : Src) ∈ srcsList ast
        && st.world.find (lit "b") = some (.path (some (lit "lib/b")), lit "z")) = true := by
    decide +kernel
  obtain ⟨ast, st', h1, h2⟩ := okWith_spec h
  simp only [Bool.and_eq_true, decide_eq_true_eq] at h2
  exact ⟨e, _, st', 40, ast, _, ⟨lit "b", 0⟩, _, _, rfl, h1, h2.1, rfl, h2.2, by decide⟩

/-- A text whose fragments are checked: the names of `ab ($f x)`. -/
example : okWith ((P { inputFile := lit "a" } 30).parse (lit "a")
      (PSt.start { inputFile := lit "a" } none (lit "ab ($f x)"))) (fun ast _ =>
      srcsList ast = [{ txt := lit "ab ", loc := some ⟨lit "a", 0⟩ }, { txt := ['$'], loc := some ⟨lit "a", 4⟩ },
        { txt := lit "f", loc := some ⟨lit "a", 5⟩ }, { txt := lit "x", loc := some ⟨lit "a", 7⟩ }]) = true := by
  decide +kernel

example : Agree { inputFile := lit "a" } (PSt.start { inputFile := lit "a" } none (lit "ab ($f x)")) :=
  C19_start _ _ _ (fun _ => rfl)
    (fun m h => by
      have e : natStr m = Nat.toDigits 10 m := Nat.toList_repr
      have h2 : 'a' ∈ Nat.toDigits 10 m := by rw [← e, ← h]; decide
      have := Nat.isDigit_of_mem_toDigits (by omega) (by omega) h2
      revert this; decide) rfl (by decide) (fun _ _ h => by cases h)

/-! ## C22 -/

/-- C22. However the libraries import each other, after parsing a text no library was read twice by
    `($import name)`. -/
theorem C22_read_once (e : PEnv) (n : Nat) (file : Str) (st st' : PSt) (ast : List Node)
    (h0 : st.reads = []) (h : (P e n).parse file st = .ok (ast, st')) (lib : Str) :
    st'.reads.count (lib, true) ≤ 1 := by
  obtain ⟨hg, -⟩ := sat_ok ((P_good e [] n).parse file st) h
  have hr := (hg.reads ⟨(by rw [h0]; intro r hr; cases hr), (by rw [h0]; exact List.nodup_nil)⟩).once
  have h1 : st'.reads.count (lib, true) ≤ ((st'.reads.filter (·.2)).map (·.1)).count lib := by
    generalize st'.reads = l
    induction l with
    | nil => simp
    | cons r l ih =>
      obtain ⟨a, b⟩ := r
      cases b
      · simpa using ih
      · by_cases ha : a = lib
        · subst ha
          simp only [List.count_cons_self, List.filter_cons, if_true, List.map_cons]
          omega
        · have h2 : ((a, true) == (lib, true)) = false := by simp [ha]
          have h3 : (a == lib) = false := by simp [ha]
          simp only [List.count_cons, h2, h3, List.filter_cons, if_true, List.map_cons]
          simpa using ih
  exact Nat.le_trans h1 (List.nodup_iff_count.mp hr lib)

/-- C22. Libraries that import each other by name in any way, cycles included, do not keep the parser
    from ending: if the text and the libraries it reaches contain only imports by name, of libraries in
    the finite list `libs`, there is one result. (An unreadable library is an exception.) -/
theorem C22_cycles_terminate (e : PEnv) (st : PSt) (file : Str) (d : Decl) (txt : Str) (libs : List Str)
    (hf : st.world.find file = some (d, txt)) (hm : ImportsOnly libs txt)
    (hl : ∀ l ∈ libs, ∀ p t, e.readLib l = some (p, t) → ImportsOnly libs (unifyEol t))
    (h0 : e.readLib (lit "<null>") = none)
    (hn : ∀ d t, st.world.find (lit "<null>") = some (d, t) → t = []) :
    ∃ N r, r ≠ .timeout ∧ ∀ n, N ≤ n → (P e n).parse file st = r := by
  refine ⟨2 * txt.length + 2 + unread e libs st, ?_⟩
  refine stable (fun n => (P e n).parse file) (fun m n h => (P_le e h).parse file) st _ ?_
  refine good_result ((P_good e libs (2 * txt.length + 2 + unread e libs st)).parse file st) (fun hb => ?_)
  have htx : textOf st file = txt := by unfold textOf; rw [hf]
  rw [htx] at hb
  have := hb hm ⟨hl, fun _ => h0, fun _ => hn⟩
  dsimp only at this
  omega

/-- Two libraries importing each other, and a text importing both: one read each, and the trees of the
    repeated imports are empty. -/
example :
    let lib (l : Str) : Option (Str × Str) :=
      if l = lit "a.yu" then some (lit "a.yu", lit "A($import b)")
      else if l = lit "b.yu" then some (lit "b.yu", lit "B($import a)")
      else none
    let e : PEnv := { inputFile := lit "m", readLib := lib }
    okWith ((P e 60).parse (lit "m") (PSt.start e none (lit "($import a)($import b)x"))) (fun ast st' =>
      st'.reads = [(lit "b.yu", true), (lit "a.yu", true)] && ast.length = 7) = true := by
  decide +kernel

/-! ## C23 -/

theorem cStrTail_quote : ∀ (f rest : Str), '"' ∉ f → '\\' ∉ f →
    cStrTail '"' (f ++ '"' :: rest) = some (f.length + 1)
  | [], rest, _, _ => by rw [List.nil_append, cStrTail.eq_def]; simp
  | c :: f, rest, h1, h2 => by
    have ih := cStrTail_quote f rest (fun h => h1 (List.mem_cons_of_mem _ h))
      (fun h => h2 (List.mem_cons_of_mem _ h))
    have hc1 : ¬ c = '"' := fun h => h1 (by rw [h]; exact List.mem_cons_self)
    have hc2 : ¬ c = '\\' := fun h => h2 (by rw [h]; exact List.mem_cons_self)
    rw [List.cons_append, cStrTail.eq_def]
    simp only [hc1, hc2, ih]
    rfl

/-- The text `($import "f")...`. -/
def selfImport (f rest : Str) : Str :=
  '(' :: '$' :: 'i' :: 'm' :: 'p' :: 'o' :: 'r' :: 't' :: ' ' :: '"' :: (f ++ '"' :: ')' :: rest)

theorem bind_timeout {m : PM α} {f : α → PM β} {st : PSt} (h : m st = .timeout) :
    (m >>= f) st = .timeout := by
  change PM.bind m f st = .timeout
  unfold PM.bind
  rw [h]

theorem bind_ok {m : PM α} {f : α → PM β} {st st' : PSt} {a : α} (h : m st = .ok (a, st')) :
    (m >>= f) st = f a st' := by
  change PM.bind m f st = _
  unfold PM.bind
  rw [h]

theorem psQuote_selfImport (e : PEnv) (f rest : Str) (hp : e.outputPython = false)
    (hf : '"' ∉ f ∧ '\\' ∉ f) (loc : Option Loc) (st : PSt) :
    ∃ s, psQuote e { txt := '"' :: (f ++ '"' :: ')' :: rest), loc := loc } st
      = .ok ((s, some (.str { txt := '"' :: f ++ ['"'] })), st) := by
  have hl : cStrLen ('"' :: (f ++ '"' :: ')' :: rest)) = some (f.length + 1 + 1) := by
    change (cStrTail '"' (f ++ '"' :: ')' :: rest)).map (· + 1) = _
    rw [cStrTail_quote f _ hf.1 hf.2]
    rfl
  unfold psQuote
  have ht : List.take (f.length + 1 + 1) ('"' :: (f ++ '"' :: ')' :: rest)) = '"' :: f ++ ['"'] := by
    simp [List.take_append, List.take_of_length_le]
  simp only [hp, Bool.false_eq_true, if_false, hl, ht]
  exact ⟨_, rfl⟩

theorem psImport_selfImport (e : PEnv) (p : Parsers) (f path txt rest : Str) (hp : e.outputPython = false)
    (hf : '"' ∉ f ∧ '\\' ∉ f) (hu : e.unq ('"' :: f ++ ['"']) = f)
    (hx : lowerStr (splitext (basename f)).2 ≠ lit ".py")
    (hr : e.readLib f = some (path, txt)) (ht : unifyEol txt = selfImport f rest)
    (hto : ∀ st : PSt, (∃ d, st.world.find f = some (d, selfImport f rest)) → p.parse f st = .timeout)
    (loc : Option Loc) (st : PSt) :
    psImport e p { txt := selfImport f rest, loc := loc } st = .timeout := by
  unfold psImport
  rw [if_pos (by rfl)]
  refine bind_timeout ?_
  have h1 : psGap (({ txt := selfImport f rest, loc := loc } : Src).drop kImport.length)
      = ({ txt := selfImport f rest, loc := loc } : Src).drop 9 := by
    rw [psGap, Src.drop_drop]; rfl
  rw [h1]
  have h2 : psAtom (({ txt := selfImport f rest, loc := loc } : Src).drop 9)
      = ((({ txt := selfImport f rest, loc := loc } : Src).drop 9).drop 0, none) := rfl
  rw [h2, Src.drop_zero]
  dsimp only
  obtain ⟨s3, h3⟩ := psQuote_selfImport e f rest hp hf (({ txt := selfImport f rest, loc := loc } : Src).drop 9).loc st
  refine (bind_ok h3).trans ?_
  dsimp only
  rw [hu, if_neg hx]
  have h4 : importSource e f false st = .ok (f, { st with
        world := { st.world with source := (f, .path (some path), unifyEol txt) :: st.world.source }
        reads := (f, false) :: st.reads }) := by
    unfold importSource
    simp only [Bool.false_and, Bool.false_eq_true, if_false, hr]
  refine (bind_ok h4).trans ?_
  refine bind_timeout (hto _ ⟨.path (some path), ?_⟩)
  rw [find_cons, if_pos rfl, ht]

/-- C23. A file that includes itself by its quoted name is never parsed: every nesting is used up. The
    claim that every import ends is therefore false. -/
theorem C23_quoted_cycle (e : PEnv) (f path txt rest : Str) (hp : e.outputPython = false)
    (hf : '"' ∉ f ∧ '\\' ∉ f) (hu : e.unq ('"' :: f ++ ['"']) = f)
    (hx : lowerStr (splitext (basename f)).2 ≠ lit ".py")
    (hr : e.readLib f = some (path, txt)) (ht : unifyEol txt = lit "($import \"" ++ f ++ lit "\")" ++ rest) :
    ∀ (n : Nat) (st : PSt), (∃ d, st.world.find f = some (d, unifyEol txt)) →
      (P e n).parse f st = .timeout := by
  have ht' : unifyEol txt = selfImport f rest := by
    rw [ht]
    have h1 : lit "($import \"" = ['(', '$', 'i', 'm', 'p', 'o', 'r', 't', ' ', '"'] := by decide
    have h2 : lit "\")" = ['"', ')'] := by decide
    rw [h1, h2]
    simp [selfImport]
  intro n
  induction n using Nat.strongRecOn with
  | ind n ih =>
    intro st ⟨d, hst⟩
    match n with
    | 0 => rfl
    | m + 1 =>
      change psParse e (P e m) f st = .timeout
      unfold psParse
      refine (bind_ok (st' := st) (a := st) rfl).trans ?_
      rw [hst, ht']
      change (if (decide (e.inputFile = f) && e.outputPython) = true then _ else
        psRun (P e m) { txt := selfImport f rest, loc := some ⟨f, 0⟩ } []) st = _
      rw [hp, Bool.and_false, if_neg (by simp)]
      change ((P e m).text .eof { sou := { txt := selfImport f rest, loc := some ⟨f, 0⟩ } } >>= _) st = _
      refine bind_timeout ?_
      match m, ih with
      | 0, _ => rfl
      | k + 1, ih =>
        change psText e (P e k) .eof { sou := { txt := selfImport f rest, loc := some ⟨f, 0⟩ } } st = _
        unfold psText
        refine bind_timeout ?_
        unfold psTextLeg
        dsimp only
        have h1 : psSet (P e k) { txt := selfImport f rest, loc := some ⟨f, 0⟩ } =
            noMatch { txt := selfImport f rest, loc := some ⟨f, 0⟩ } := by
          unfold psSet; exact if_neg (by simp [Src.starts, kSet, selfImport])
        have h2 : psLet (P e k) { txt := selfImport f rest, loc := some ⟨f, 0⟩ } =
            noMatch { txt := selfImport f rest, loc := some ⟨f, 0⟩ } := by
          unfold psLet; exact if_neg (by simp [Src.starts, kLet, selfImport])
        rw [h1]
        refine (bind_ok (st' := st) (a := ({ txt := selfImport f rest, loc := some ⟨f, 0⟩ }, none)) rfl).trans ?_
        dsimp only
        rw [h2]
        refine (bind_ok (st' := st) (a := ({ txt := selfImport f rest, loc := some ⟨f, 0⟩ }, none)) rfl).trans ?_
        dsimp only
        refine bind_timeout ?_
        refine psImport_selfImport e (P e k) f path txt rest hp hf hu hx hr ht' ?_ _ st
        rintro st2 ⟨d2, h2⟩
        exact ih k (by omega) st2 ⟨d2, by rw [ht']; exact h2⟩

/-- The assumptions are met by a file `a.yu` whose first line includes `a.yu`. -/
example (n : Nat) :
    let e : PEnv := { inputFile := lit "a.yu", unq := fun s => s.tail.dropLast,
                      readLib := fun _ => some (lit "a.yu", lit "($import \"a.yu\")\r\nx") }
    (P e n).parse (lit "a.yu") (PSt.start e none (lit "($import \"a.yu\")\r\nx")) = .timeout :=
  C23_quoted_cycle _ (lit "a.yu") (lit "a.yu") _ (lit "\nx") rfl (by decide) (by decide) (by decide) rfl
    (by decide) n _ ⟨.path none, by decide⟩

end Yupp
