import Verif.Spec.Missing
import Verif.Props.Modules
import Verif.Props.Library
import Verif.Props.Command
/-!
# C105 — An import that cannot be satisfied
-/

namespace Yupp

section
variable {e : PEnv}

theorem ComesTo.bind_err {f : Parsers → PM α} {g : Parsers → α → PM β} {st : PSt} (h : ComesTo e f st .err) :
    ComesTo e (fun p => f p >>= g p) st .err := by
  obtain ⟨N, hN⟩ := h
  refine ⟨N, fun n hn => ?_⟩
  change PM.bind (f (P e n)) (g (P e n)) st = .err
  unfold PM.bind
  rw [hN n hn]

theorem ComesTo.bind {f : Parsers → PM α} {g : Parsers → α → PM β} {a : α} {st st' : PSt} {r : PRes (β × PSt)} (hf : GivesAt e f st a st')
    (hg : ComesTo e (fun p => g p a) st' r) : ComesTo e (fun p => f p >>= g p) st r := by
  obtain ⟨M, hM⟩ := hf
  obtain ⟨N, hN⟩ := hg
  refine ⟨max M N, fun n hn => ?_⟩
  exact (bind_ok (hM n (by omega))).trans (hN n (by omega))

theorem leg_err {k : Stop} {t : TextSt} {st : PSt} (h : ComesTo e (fun p => psTextLeg e p t.sou) st .err) :
    ComesTo e (fun p => psText e p k t) st .err := by
  unfold psText
  exact h.bind_err

theorem leg_ends {k : Stop} {t : TextSt} {s : Src} {ns : List Node} {st st' : PSt} {r : PRes ((Src × List Node) × PSt)}
    (h1 : GivesAt e (fun p => psTextLeg e p t.sou) st (s, some ns) st')
    (h2 : ComesTo e (fun p => psText e p k { t with sou := s, ast := t.ast ++ ns, gen := none }) st' r) :
    ComesTo e (fun p => psText e p k t) st r := by
  unfold psText
  exact ComesTo.bind h1 h2.text

theorem empty_not_err {key : Str} {st : PSt}
    (h : ComesTo e (fun p => psText e p .eof { sou := { txt := [], loc := some ⟨key, 0⟩ } }) st .err) : False := by
  obtain ⟨N, hN⟩ := h
  obtain ⟨M, hM⟩ := (text_stop (e := e) (k := .eof) (t := { sou := { txt := [], loc := some ⟨key, 0⟩ } })
    (src' := { txt := [], loc := some ⟨key, 0⟩ }) (fun p => leg_none_head p (by intro c hc; cases hc)) rfl)
  have h2 := hN (max N M) (by omega)
  rw [hM (max N M) (by omega)] at h2
  cases h2

theorem parse_file_err {key : Str} {st : PSt} {d : Decl} {txt : Str} (hf : st.world.find key = some (d, txt))
    (hk : e.outputPython = true → e.inputFile ≠ key)
    (h : ComesTo e (fun p => psText e p .eof { sou := { txt := txt, loc := some ⟨key, 0⟩ } }) st .err) :
    ComesTo e (fun p => p.parse key) st .err := by
  refine ComesTo.step (g := fun p => psParse e p key) ?_ (fun _ => rfl)
  have hget : PM.get st = .ok (st, st) := rfl
  cases txt with
  | nil => exact (empty_not_err h).elim
  | cons c s =>
    obtain ⟨N, hN⟩ := h.text
    refine ⟨N, fun n hn => ?_⟩
    change psParse e (P e n) key st = _
    unfold psParse
    rw [pm_bind_ok hget, hf]
    dsimp only
    rw [if_neg]
    · unfold psRun
      rw [if_neg (by simp)]
      have h5 := hN n hn
      change (P e n).text .eof _ _ = _ at h5
      change PM.bind ((P e n).text .eof _) _ st = _
      unfold PM.bind
      rw [h5]
    · intro h0
      simp only [Bool.and_eq_true, decide_eq_true_eq] at h0
      exact hk h0.2 h0.1

/-- An import by name that fails. -/
theorem import_lib_err {a g s : Str} (hg : IsGap g) (ha : IsName a) (hs' : NoName s) {src : Src}
    (hs : src.txt = '(' :: '$' :: 'i' :: 'm' :: 'p' :: 'o' :: 'r' :: 't' :: (g ++ (a ++ s))) {st : PSt}
    (h : ComesTo e (fun p => importSource e (a ++ ['.', 'y', 'u']) true >>= fun key => p.parse key) st .err) :
    ComesTo e (fun p => psTextLeg e p src) st .err := by
  have hk : src.starts kImport = true := starts_pre (t := g ++ (a ++ s)) hs
  have a0 : (src.drop kImport.length).txt = g ++ (a ++ s) := by rw [Src.drop_txt, hs]; rfl
  have a1 : (psGap (src.drop kImport.length)).txt = a ++ s := gap_of a0 hg ha.noGap
  have a2 := psAtom_append a1 ha hs'
  have a3 := Src.take_pre _ _ _ a1
  have hI : ComesTo e (fun p => psImport e p src) st .err := by
    unfold psImport
    simp only [hk, if_true, a2]
    refine ComesTo.bind_err ?_
    rw [a3]
    obtain ⟨N, hN⟩ := h
    refine ⟨N, fun n hn => ?_⟩
    have h1 := hN n hn
    change PM.bind (importSource e (a ++ ['.', 'y', 'u']) true) _ st = _ at h1
    change PM.bind (importSource e (a ++ ['.', 'y', 'u']) true) _ st = _
    unfold PM.bind at h1 ⊢
    cases hi : importSource e (a ++ ['.', 'y', 'u']) true st with
    | timeout => rw [hi] at h1; cases h1
    | err => rfl
    | ok q =>
      rw [hi] at h1
      dsimp only at h1 ⊢
      change PM.bind ((P e n).parse q.1) _ q.2 = _
      unfold PM.bind
      rw [h1]
  refine ComesTo.of_eq (g := fun p => orElse (psImport e p src) _) ?_ (fun p => textLeg_import p hs)
  unfold Yupp.orElse
  exact hI.bind_err

/-- An import by file name that fails. -/
theorem import_file_err {q : Char} {l g s : Str} (hg : IsGap g) (hq : QuoteMark q) (hl : TextLiteral (modeOf e) (q :: l) s) {src : Src}
    (hs : src.txt = '(' :: '$' :: 'i' :: 'm' :: 'p' :: 'o' :: 'r' :: 't' :: (g ++ (q :: l ++ s))) {st : PSt}
    (h : ComesTo e (fun p => if lowerStr (splitext (basename (e.unq (q :: l)))).2 = ['.', 'p', 'y'] then
        importPython e (e.unq (q :: l)) >>= fun _ => pure []
      else importSource e (e.unq (q :: l)) false >>= fun key => p.parse key) st .err) :
    ComesTo e (fun p => psTextLeg e p src) st .err := by
  have hk : src.starts kImport = true := starts_pre (t := g ++ (q :: l ++ s)) hs
  have a0 : (src.drop kImport.length).txt = g ++ (q :: l ++ s) := by rw [Src.drop_txt, hs]; rfl
  have a1 : (psGap (src.drop kImport.length)).txt = q :: l ++ s := by
    refine gap_of a0 hg ?_
    rw [List.cons_append]
    rcases hq with rfl | rfl <;> exact noGap_cons (by decide) _
  have a2 : psAtom (psGap (src.drop kImport.length)) = (psGap (src.drop kImport.length), none) := by
    refine psAtom_none_of (fun c hc => ?_)
    rw [a1] at hc
    simp only [List.cons_append, List.head?_cons, Option.some.injEq] at hc
    subst hc
    rcases hq with rfl | rfl <;> (unfold NameStart; decide)
  obtain ⟨-, x, a3, a4⟩ := hl.quote a1
  have hI : ComesTo e (fun p => psImport e p src) st .err := by
    unfold psImport
    simp only [hk, if_true, a2, a4]
    refine ComesTo.bind_err ?_
    refine ComesTo.bind (f := fun _ => pure ((psGap (src.drop kImport.length)).drop (q :: l).length, some (Node.str x)))
      ((Gives.pure _).at _) ?_
    dsimp only
    rw [a3]
    simp only [show lit ".py" = ['.', 'p', 'y'] from rfl]
    obtain ⟨N, hN⟩ := h
    refine ⟨N, fun n hn => ?_⟩
    have h1 := hN n hn
    dsimp only at h1 ⊢
    split at h1
    · rename_i hpy
      rw [if_pos hpy]
      change PM.bind (importPython e (e.unq (q :: l))) _ st = _ at h1
      change PM.bind (importPython e (e.unq (q :: l))) _ st = _
      unfold PM.bind at h1 ⊢
      cases hi : importPython e (e.unq (q :: l)) st with
      | timeout => rw [hi] at h1; cases h1
      | err => rfl
      | ok w => rw [hi] at h1; cases h1
    · rename_i hpy
      rw [if_neg hpy]
      change PM.bind (importSource e (e.unq (q :: l)) false) _ st = _ at h1
      change PM.bind (importSource e (e.unq (q :: l)) false) _ st = _
      unfold PM.bind at h1 ⊢
      cases hi : importSource e (e.unq (q :: l)) false st with
      | timeout => rw [hi] at h1; cases h1
      | err => rfl
      | ok w =>
        rw [hi] at h1
        dsimp only at h1 ⊢
        change PM.bind ((P e n).parse w.1) _ w.2 = _
        unfold PM.bind
        rw [h1]
  refine ComesTo.of_eq (g := fun p => orElse (psImport e p src) _) ?_ (fun p => textLeg_import p hs)
  unfold Yupp.orElse
  exact hI.bind_err

/-- An import that is satisfied. -/
theorem import_done {p : SourcePart} {s s' : Str} (hI : ImportAt (modeOf e) p s s') {known known' : List Str} {r : Expanded}
    (hE : Expands (modeOf e) e known [p] r known') {src : Src} (hs : src.txt = s) {st : PSt} (hK : Knows st known)
    (hin : e.inputFile ∈ known) :
    ∃ src' ns st', src'.txt = s' ∧ Knows st' known' ∧ e.inputFile ∈ known' ∧ OnlyFiles st st' ∧
      GivesAt e (fun p => psTextLeg e p src) st (src', some ns) st' := by
  cases hI with
  | @lib a g1 g2 s s' g1' hn g2' hc =>
    cases hE with
    | again ha hE =>
      cases hE
      obtain ⟨d, hd⟩ := hK.null
      have h1 : importSource e (a ++ ['.', 'y', 'u']) true st = .ok (lit "<null>", st) := by
        unfold importSource
        rw [(hK.files _).2 ha]
        rfl
      have h2 : GivesAt e (fun p => p.parse (lit "<null>")) st [] st := by
        refine GivesAt.step (g := fun p => psParse e p (lit "<null>")) ⟨0, fun n _ => ?_⟩ (fun _ => rfl)
        change psParse e (P e n) (lit "<null>") st = _
        unfold psParse
        rw [pm_bind_ok (show PM.get st = .ok (st, st) from rfl), hd]
        rfl
      obtain ⟨src1, a1, a2⟩ := import_lib g1' hn g2' hc hs h1 h2
      exact ⟨src1, _, st, a1, hK, hin, ⟨rfl, rfl, rfl⟩, a2⟩
    | @lib _ known1 _ _ path text _ ys q r ha hr hY hQ hE =>
      cases hE
      have h1 : importSource e (a ++ ['.', 'y', 'u']) true st = .ok (a ++ ['.', 'y', 'u'], loaded st (a ++ ['.', 'y', 'u']) path text true) := by
        unfold importSource
        have : (st.world.find (a ++ ['.', 'y', 'u'])).isSome = false := by
          rw [Bool.eq_false_iff]; exact fun h => ha ((hK.files _).1 h)
        rw [this, hr]
        rfl
      obtain ⟨src0, ms, st1, c1, c2, c3, c4, c5⟩ := source_modules hQ _ hY
        { sou := { txt := unifyEol text, loc := some ⟨a ++ ['.', 'y', 'u'], 0⟩ } }
        (loaded st (a ++ ['.', 'y', 'u']) path text true) rfl (fun _ => rfl) (hK.loaded lib_ne_null) (by simp [hin])
      have h2 := parse_file (find_loaded st (a ++ ['.', 'y', 'u']) path text true) (fun _ h => ha (h ▸ hin)) c5
      obtain ⟨src1, a1, a2⟩ := import_lib g1' hn g2' hc hs h1 h2
      exact ⟨src1, _, st1, a1, c1, c2, .trans ⟨rfl, rfl, rfl⟩ c3, a2⟩
  | @file qm l g1 g2 s s' hg1 hq hl hg2 hc =>
    cases hE with
    | @file _ known1 _ _ path text _ ys q r hpy hin' hnull hr hY hQ hE =>
      cases hE
      have h1 : importSource e (e.unq (qm :: l)) false st = .ok (e.unq (qm :: l), loaded st (e.unq (qm :: l)) path text false) := by
        unfold importSource
        rw [hr]
        rfl
      obtain ⟨src0, ms, st1, c1, c2, c3, c4, c5⟩ := source_modules hQ _ hY
        { sou := { txt := unifyEol text, loc := some ⟨e.unq (qm :: l), 0⟩ } }
        (loaded st (e.unq (qm :: l)) path text false) rfl (fun _ => rfl) (hK.loaded hnull) (by simp [hin])
      have h2 := parse_file (find_loaded st (e.unq (qm :: l)) path text false) (fun _ h => hin' h.symm) c5
      obtain ⟨src1, a1, a2⟩ := import_file hg1 hq hl hg2 hc hs hpy h1 h2
      exact ⟨src1, _, st1, a1, c1, c2, .trans ⟨rfl, rfl, rfl⟩ c3, a2⟩

/-- Reading a text that lacks a file fails. -/
theorem lacks_fails {b : Bool} {known : List Str} {s : Str} (h : Lacks (modeOf e) e b known s) :
    ∀ (t : TextSt) (st : PSt), t.sou.txt = s → (b = true → t.gen = none) → Knows st known → e.inputFile ∈ known → st.scripts = [] →
      ComesTo e (fun p => psText e p .eof t) st .err := by
  have bindOk : ∀ {α β : Type} {m : PM α} {f : Parsers → α → PM β} {st st' : PSt} {a : α}, m st = .ok (a, st') →
      ComesTo e (fun p => f p a) st' .err → ComesTo e (fun p => m >>= f p) st .err :=
    fun h1 h2 => ComesTo.bind (f := fun _ => _) ⟨0, fun _ _ => h1⟩ h2
  induction h with
  | chars hw hp _ ih =>
    intro t st ht hg hK hin hsc
    obtain ⟨t', x, i, a1, -, -, -, a5⟩ := run_all t hw ht hp (hg rfl)
    exact a5 _ _ (ih t' st a1 (by intro h; cases h) hK hin hsc)
  | piece hp _ ih =>
    intro t st ht hg hK hin hsc
    obtain ⟨src1, n, a1, a2, a3⟩ := hp.leg ht
    exact leg_ends (a3.at st) (ih _ st a1 (fun _ => rfl) hK hin hsc)
  | behind hI hE _ ih =>
    intro t st ht hg hK hin hsc
    obtain ⟨src', ns, st', a1, a2, a3, a4, a5⟩ := import_done hI hE ht hK hin
    exact leg_ends a5 (ih _ st' a1 (fun _ => rfl) a2 a3 (a4.2.1.trans hsc))
  | @lib _ known a g s hg1 ha hn hk hr =>
    intro t st ht hg hK hin hsc
    refine leg_err (import_lib_err hg1 ha hn ht (ComesTo.bind_err (f := fun _ => _) ⟨0, fun _ _ => ?_⟩))
    change importSource e (a ++ ['.', 'y', 'u']) true st = _
    unfold importSource
    have : (st.world.find (a ++ ['.', 'y', 'u'])).isSome = false := by
      rw [Bool.eq_false_iff]; exact fun h => hk ((hK.files _).1 h)
    rw [this, hr]
    rfl
  | @file _ known q l g s hg1 hq hl hpy hr =>
    intro t st ht hg hK hin hsc
    refine leg_err (import_file_err hg1 hq hl ht ?_)
    simp only [if_neg hpy]
    refine ComesTo.bind_err (f := fun _ => _) ⟨0, fun _ _ => ?_⟩
    unfold importSource
    rw [hr]
    rfl
  | @script _ known q l g s hg1 hq hl hpy hr =>
    intro t st ht hg hK hin hsc
    refine leg_err (import_file_err hg1 hq hl ht ?_)
    simp only [if_pos hpy]
    refine ComesTo.bind_err (f := fun _ => _) ⟨0, fun _ _ => ?_⟩
    change importPython e (e.unq (q :: l)) st = _
    unfold importPython
    rw [if_neg (by rw [hsc]; simp), hr]
    rfl
  | @inLib _ known a g s path text hg1 ha hn hk hr _ ih =>
    intro t st ht hg hK hin hsc
    have h1 : importSource e (a ++ ['.', 'y', 'u']) true st = .ok (a ++ ['.', 'y', 'u'], loaded st (a ++ ['.', 'y', 'u']) path text true) := by
      unfold importSource
      have : (st.world.find (a ++ ['.', 'y', 'u'])).isSome = false := by
        rw [Bool.eq_false_iff]; exact fun h => hk ((hK.files _).1 h)
      rw [this, hr]
      rfl
    refine leg_err (import_lib_err hg1 ha hn ht (bindOk h1 ?_))
    exact parse_file_err (find_loaded st (a ++ ['.', 'y', 'u']) path text true) (fun _ h => hk (h ▸ hin))
      (ih { sou := { txt := unifyEol text, loc := some ⟨a ++ ['.', 'y', 'u'], 0⟩ } } _ rfl (fun _ => rfl) (hK.loaded lib_ne_null)
        (by simp [hin]) hsc)
  | @inFile _ known q l g s path text hg1 hq hl hpy hne hnull hr _ ih =>
    intro t st ht hg hK hin hsc
    have h1 : importSource e (e.unq (q :: l)) false st = .ok (e.unq (q :: l), loaded st (e.unq (q :: l)) path text false) := by
      unfold importSource
      rw [hr]
      rfl
    refine leg_err (import_file_err hg1 hq hl ht ?_)
    simp only [if_neg hpy]
    refine bindOk h1 ?_
    exact parse_file_err (find_loaded st (e.unq (q :: l)) path text false) (fun _ h => hne h.symm)
      (ih { sou := { txt := unifyEol text, loc := some ⟨e.unq (q :: l), 0⟩ } } _ rfl (fun _ => rfl) (hK.loaded hnull)
        (by simp [hin]) hsc)

/-- **C105**. A program that lacks a file, itself or in what it imports, is not parsed: the exception reaches the top. -/
theorem C105_parse (e : PEnv) (input : Option Str) {s : Str}
    (h : Lacks (modeOf e) e true [e.inputFile, ['<', 'n', 'u', 'l', 'l', '>']] s)
    (hcr : '\r' ∉ s) (hnull : e.inputFile ≠ ['<', 'n', 'u', 'l', 'l', '>'])
    (hm : e.outputPython = true → ¬ MagicFirst e.word s ∧ ¬ MagicSecond e.word s) :
    ∃ N, ∀ n, N ≤ n → (P e n).parse e.inputFile (PSt.start e input s) = .err := by
  have h0 := lacks_fails h { sou := { txt := s, loc := some ⟨e.inputFile, 0⟩ } } (PSt.start e input s) rfl (fun _ => rfl)
    (knows_start e input s hnull) (by simp) rfl
  have hne : s ≠ [] := by
    rintro rfl
    exact empty_not_err h0
  obtain ⟨N, h5⟩ := h0.text
  refine ⟨N + 1, fun n hn => ?_⟩
  obtain ⟨m, rfl⟩ : ∃ m, n = m + 1 := ⟨n - 1, by omega⟩
  change psParse e (P e m) e.inputFile _ = _
  have hu := C12_no_cr_id s hcr
  have hfind : (PSt.start e input s).world.find e.inputFile = some (.path input, s) := by
    simp [PSt.start, World.find, hu]
  unfold psParse
  have hget : PM.get (PSt.start e input s) = .ok (PSt.start e input s, PSt.start e input s) := rfl
  rw [pm_bind_ok hget, hfind]
  have hrun : psRun (P e m) { txt := s, loc := some ⟨e.inputFile, 0⟩ } [] (PSt.start e input s) = .err := by
    unfold psRun
    rw [if_neg (by simpa using hne)]
    have h6 := h5 m (by omega)
    change (P e m).text .eof _ _ = _ at h6
    change PM.bind ((P e m).text .eof _) _ _ = _
    unfold PM.bind
    rw [h6]
  cases s with
  | nil => exact absurd rfl hne
  | cons c s =>
    dsimp only
    split
    · rename_i ho
      simp only [decide_true, Bool.true_and] at ho
      have := psHeader_neither e.word { txt := c :: s, loc := some ⟨e.inputFile, 0⟩ } hcr (hm ho).1 (hm ho).2
      rw [this]
      exact hrun
    · exact hrun
end

/-- **C105**. The translation of a program that lacks a file ends, and its one result is the exception: no text, no output
    file, nothing of what comes before the import. -/
theorem C105_program (e : EEnv) (readable : Node → Str) (input : Option Str) (seen : List Node) {s : Str}
    (h : Lacks (modeOf e.pe) e.pe true [e.pe.inputFile, ['<', 'n', 'u', 'l', 'l', '>']] s)
    (hcr : '\r' ∉ s) (hnull : e.pe.inputFile ≠ ['<', 'n', 'u', 'l', 'l', '>'])
    (hm : e.pe.outputPython = true → ¬ MagicFirst e.pe.word s ∧ ¬ MagicSecond e.pe.word s) (run : Run) :
    Translates e readable input seen s run ↔ run = { raw := .raised } := by
  obtain ⟨N, hN⟩ := C105_parse e.pe input h hcr hnull hm
  constructor
  · rintro ⟨n, hn⟩
    have h2 := hN (max n N) (Nat.le_max_right _ _)
    have h3 := (P_le e.pe (Nat.le_max_left n N)).parse e.pe.inputFile (PSt.start e.pe input s)
    unfold runAt at hn
    rw [h2] at h3
    rcases h3 with h3 | h3
    · rw [h3] at hn; cases hn
    · rw [h3] at hn; cases hn; rfl
  · rintro rfl
    refine ⟨N, ?_⟩
    unfold runAt
    rw [hN N (Nat.le_refl _)]

/-- **C105**. If there is no file at any of the places where a library is looked for (C72), a program that imports it fails,
    whatever comes before in plain text and whatever follows. -/
theorem C105_nowhere (e : EEnv) (readable : Node → Str) (input : Option Str) (seen : List Node) (fs : Fs) (inputPath : Option Str)
    (dirs : List Str) (lib : Str) (hlib : e.pe.readLib = readLibrary fs (libDirs inputPath dirs lib)) {w a g s : Str} (hw : w ≠ [])
    (hp : PlainRun (modeOf e.pe) w (['(', '$', 'i', 'm', 'p', 'o', 'r', 't'] ++ (g ++ (a ++ s)))) (hg : IsGap g) (ha : IsName a) (hn : NoName s)
    (hno : ∀ q ∈ Spec.places72 inputPath dirs lib (a ++ ['.', 'y', 'u']), fs q = none) (hin : e.pe.inputFile ≠ a ++ ['.', 'y', 'u'])
    (hcr : '\r' ∉ w ++ ['(', '$', 'i', 'm', 'p', 'o', 'r', 't'] ++ (g ++ (a ++ s))) (hnull : e.pe.inputFile ≠ ['<', 'n', 'u', 'l', 'l', '>'])
    (hm : e.pe.outputPython = true → ¬ MagicFirst e.pe.word (w ++ ['(', '$', 'i', 'm', 'p', 'o', 'r', 't'] ++ (g ++ (a ++ s))) ∧
      ¬ MagicSecond e.pe.word (w ++ ['(', '$', 'i', 'm', 'p', 'o', 'r', 't'] ++ (g ++ (a ++ s)))) (run : Run) :
    Translates e readable input seen (w ++ ['(', '$', 'i', 'm', 'p', 'o', 'r', 't'] ++ (g ++ (a ++ s))) run ↔ run = { raw := .raised } := by
  refine C105_program e readable input seen ?_ hcr hnull hm run
  rw [List.append_assoc]
  refine .chars hw hp (.lib (a := a) (g := g) (s := s) hg ha hn ?_ ?_)
  · have h1 : a ++ ['.', 'y', 'u'] ≠ ['<', 'n', 'u', 'l', 'l', '>'] := lib_ne_null
    simp only [List.mem_cons, List.not_mem_nil, or_false, not_or]
    exact ⟨fun h => hin h.symm, h1⟩
  · rw [hlib]
    exact (C72_missing fs inputPath dirs lib _).2 hno

/-- The whole source `s` lacks a file; the settings are those the command has (the name of the source is not that of the empty
    text, and there are no line magics at the start that a Python output would keep). -/
def LacksFile (e : PEnv) (s : Str) : Prop :=
  Lacks (modeOf e) e true [e.inputFile, ['<', 'n', 'u', 'l', 'l', '>']] s ∧ e.inputFile ≠ ['<', 'n', 'u', 'l', 'l', '>'] ∧
    (e.outputPython = true → ¬ MagicFirst e.word s ∧ ¬ MagicSecond e.word s)

/-- One pass that raises an exception. -/
theorem raised_done {o : Oracle} (ho : NoFault o) (cfg sh json) (eng : Engine) {fn : Str} {s : Sys} {f : File} (hf : s.fs fn = some f)
    (he : eng s.fs 0 fn (outputFn sh fn) (unifyEol f.content) = { raw := .raised }) :
    ∃ s', s'.fs = s.fs ∧ ∀ fuel, 1 ≤ fuel →
      runPasses (ppFile cfg sh json eng) fn fuel 0 o s = .done (some (1, [⟨fn, 0, false⟩])) s' := by
  obtain ⟨s', h1, h2⟩ := ppFile_done ho cfg sh json eng 0 hf
  rw [he] at h1 h2
  refine ⟨s', ?_, fun fuel hfu => ?_⟩
  · rw [h2]
    rfl
  · obtain ⟨n, rfl⟩ : ∃ n, fuel = n + 1 := ⟨fuel - 1, by omega⟩
    unfold runPasses
    rw [bind_done h1]
    rfl

/-- **C105**. The command over source files each of which lacks a file, itself or in what it imports: every source is tried
    once, every one counts as a failure, and no file is changed, the outputs of earlier runs included. -/
theorem C105_command {o : Oracle} (ho : NoFault o) (cfg sh json) (env : Fs → Nat → Str → Str → EEnv) (readable : Node → Str)
    (seen : Nat → Str → List Node) (files : List Str) (s : Sys)
    (h : ∀ fn ∈ files, ∃ c, Holds s.fs fn c ∧ LacksFile (env s.fs 0 fn (outputFn sh fn)).pe (Spec.oneEol c)) :
    ∃ s', s'.fs = s.fs ∧ ∀ fuel, 1 ≤ fuel → cliFiles (ppFile cfg sh json (translator env readable seen)) fuel files o s =
      .done (some (4 * files.length, files.map fun fn => ⟨fn, 0, false⟩)) s' := by
  have key : ∀ files s1, s1.fs = s.fs → (∀ fn ∈ files, ∃ c, Holds s.fs fn c ∧ LacksFile (env s.fs 0 fn (outputFn sh fn)).pe (Spec.oneEol c)) →
      ∃ s', s'.fs = s.fs ∧ ∀ fuel, 1 ≤ fuel → ∀ k, runFiles (ppFile cfg sh json (translator env readable seen)) fuel files k o s1 =
        .done (some (k + files.length, files.map fun fn => ⟨fn, 0, false⟩)) s' := by
    intro files
    induction files with
    | nil => intro s1 h1 _; exact ⟨s1, h1, fun _ _ _ => rfl⟩
    | cons fn rest ih =>
      intro s1 h1 hl
      obtain ⟨c, ⟨f, hf, rfl⟩, hlack, hnull, hm⟩ := hl fn (List.mem_cons_self ..)
      rw [← unifyEol_eq] at hlack hm
      have htr := (C105_program (env s.fs 0 fn (outputFn sh fn)) readable (some fn) (seen 0 fn) hlack (C12_no_cr _) hnull hm
        { raw := .raised }).2 rfl
      obtain ⟨s2, h2, h3⟩ := raised_done ho cfg sh json (translator env readable seen) (s := s1) (by rw [h1]; exact hf)
        (by rw [h1]; exact translator_eq htr)
      obtain ⟨s', h4, h5⟩ := ih s2 (h2.trans h1) fun fn hfn => hl fn (List.mem_cons_of_mem _ hfn)
      refine ⟨s', h4, fun fuel hfu k => ?_⟩
      unfold runFiles
      rw [bind_done (h3 fuel hfu)]
      simp only []
      rw [bind_done (h5 fuel hfu (k + 1))]
      simp only [Option.map_some, List.length_cons, List.map_cons, List.cons_append, List.nil_append]
      rw [show k + (rest.length + 1) = k + 1 + rest.length by omega]
      rfl
  obtain ⟨s', h1, h2⟩ := key files s rfl h
  refine ⟨s', h1, fun fuel hfu => ?_⟩
  unfold cliFiles
  rw [bind_done (h2 fuel hfu 0)]
  simp only [Option.map_some, Nat.zero_add, Nat.shiftLeft_eq]
  rw [Nat.mul_comm]
  rfl

/-! ## Concrete cases -/

/-- The library `m.yu`: a macro, and an import of `k`, which is not closed. -/
def lackingLib : Str := sampleLib ++ ['(', '$', 'i', 'm', 'p', 'o', 'r', 't', ' ', 'k']

theorem lackingLib_lacks (m : Mode) (e : PEnv) {known : List Str} (hk : ['k', '.', 'y', 'u'] ∉ known)
    (hlib : e.readLib ['k', '.', 'y', 'u'] = none) : Lacks m e true known lackingLib := by
  have hg : IsGap [' '] := by intro c hc; simp at hc; subst hc; decide
  have h0 : IsGap [] := by intro c hc; cases hc
  refine Lacks.piece (x := .macro ['a'] [] ['b'] .nil) (s' := '\n' :: ['(', '$', 'i', 'm', 'p', 'o', 'r', 't', ' ', 'k'])
    (OnePiece.defMacro (g1 := [' ']) (g2 := []) (g3 := []) (t := []) hg (isName_letter (by decide)) h0 h0 .nil
      (.char (by decide) (by decide) .nil) ?_) ?_
  · intro c hc; simp at hc; subst hc; unfold Admissible; decide
  · refine Lacks.chars (w := ['\n']) (by simp) (plainRun_quiet m _ ?_ ?_)
      (.lib (a := ['k']) (g := [' ']) (s := []) hg (isName_letter (by decide)) (by intro c h; cases h) hk hlib)
    · intro c hc; simp at hc; subst hc; unfold Admissible; decide
    · intro c hc; simp at hc; subst hc; unfold QuoteMark PrefixChar; decide

/-- `y`, and an import of a library that imports a library that does not exist. -/
example (e : EEnv) (readable : Node → Str) (seen : List Node) (ho : e.pe.outputPython = false) (h0 : e.pe.inputFile = ['p'])
    (h1 : e.pe.readLib ['m', '.', 'y', 'u'] = some (['/', 'm'], lackingLib)) (h2 : e.pe.readLib ['k', '.', 'y', 'u'] = none) (run : Run) :
    Translates e readable none seen ['y', '(', '$', 'i', 'm', 'p', 'o', 'r', 't', ' ', 'm', ')', 'z'] run ↔ run = { raw := .raised } := by
  refine C105_program e readable none seen ?_ (by decide) (by rw [h0]; decide) (by rw [ho]; intro h; cases h) run
  refine Lacks.chars (w := ['y']) (by simp) (plainRun_quiet _ _ ?_ ?_) (.inLib (a := ['m']) (g := [' ']) (s := [')', 'z']) ?_
    (isName_letter (by decide)) (noName_cons (by decide) _) ?_ h1 ?_)
  · intro c hc; simp at hc; subst hc; unfold Admissible; decide
  · intro c hc; simp at hc; subst hc; unfold QuoteMark PrefixChar; decide
  · intro c hc; simp at hc; subst hc; decide
  · rw [h0]; decide
  · rw [show unifyEol lackingLib = lackingLib from C12_no_cr_id _ (by decide)]
    exact lackingLib_lacks _ _ (by rw [h0]; decide) h2

/-- The import of a library that is read is passed. -/
example (m : Mode) (e : PEnv) (hin : e.inputFile ≠ ['m', '.', 'y', 'u']) (h2 : e.readLib ['k', '.', 'y', 'u'] = none)
    (hin' : e.inputFile ≠ ['k', '.', 'y', 'u']) (hlib : e.readLib ['m', '.', 'y', 'u'] = some (['/', 'm'], sampleLib)) :
    Lacks m e true [e.inputFile, ['<', 'n', 'u', 'l', 'l', '>']]
      ['(', '$', 'i', 'm', 'p', 'o', 'r', 't', ' ', 'm', ')', '(', '$', 'i', 'm', 'p', 'o', 'r', 't', ' ', 'k', ')'] := by
  have hg : IsGap [' '] := by intro c hc; simp at hc; subst hc; decide
  have h0 : IsGap [] := by intro c hc; cases hc
  refine .behind (known' := [['m', '.', 'y', 'u'], e.inputFile, ['<', 'n', 'u', 'l', 'l', '>']])
    (ImportAt.lib (g1 := [' ']) (g2 := []) hg (isName_letter (by decide)) h0 .plain)
    (.lib (ys := [.piece (.macro ['a'] [] ['b'] .nil), .chars ['\n']]) ?_ hlib ?_ (.piece (.chars .nil)) .nil)
    (.lib (a := ['k']) (g := [' ']) hg (isName_letter (by decide)) (noName_cons (by decide) _) ?_ h2)
  · simp [hin.symm]
  · rw [show unifyEol sampleLib = sampleLib from C12_no_cr_id _ (by decide)]
    exact sampleLib_source m
  · simp [hin'.symm]

/-- The command with the source `p.yu` that imports a library that is not there: status 4, and the `p` of an earlier run is
    kept. -/
example (e : EEnv) (readable : Node → Str) (fs : Fs) (ho : e.pe.outputPython = false) (h0 : e.pe.inputFile = ['p'])
    (h1 : e.pe.readLib ['k', '.', 'y', 'u'] = none) (hf : fs (lit "p.yu") = some { content := lit "y($import k)" })
    (hold : Holds fs ['p'] ['o', 'l', 'd']) :
    ∃ calls s', cliFiles (ppFile {} {} (fun _ => []) (translator (fun _ _ _ _ => e) readable fun _ _ => [])) 1 [lit "p.yu"] calm ⟨fs, 0⟩ =
      .done (some (4, calls)) s' ∧ Holds s'.fs ['p'] ['o', 'l', 'd'] := by
  obtain ⟨s', h2, h3⟩ := C105_command (o := calm) (fun _ => rfl) {} {} (fun _ => []) (fun _ _ _ _ => e) readable (fun _ _ => [])
    [lit "p.yu"] ⟨fs, 0⟩ (by
      intro fn hfn
      obtain rfl := List.mem_singleton.1 hfn
      refine ⟨_, ⟨_, hf, rfl⟩, ?_, by rw [h0]; decide, by rw [ho]; intro h; cases h⟩
      rw [show Spec.oneEol (lit "y($import k)") = ['y', '(', '$', 'i', 'm', 'p', 'o', 'r', 't', ' ', 'k', ')'] by decide +kernel]
      refine Lacks.chars (w := ['y']) (by simp) (plainRun_quiet _ _ ?_ ?_) (.lib (a := ['k']) (g := [' ']) (s := [')']) ?_
        (isName_letter (by decide)) (noName_cons (by decide) _) ?_ h1)
      · intro c hc; simp at hc; subst hc; unfold Admissible; decide
      · intro c hc; simp at hc; subst hc; unfold QuoteMark PrefixChar; decide
      · intro c hc; simp at hc; subst hc; decide
      · rw [h0]; decide)
  exact ⟨_, s', h3 1 (Nat.le_refl _), by rw [h2]; exact hold⟩

end Yupp
