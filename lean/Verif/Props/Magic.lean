import Verif.Lemmas.Magic
import Verif.Props.Header
import Verif.Props.Generate
import Verif.Props.Codec
/-!
# C79 — The header of a Python source
-/

namespace Yupp

open Spec

/-- A magic comment is what a header is: on the first line. -/
theorem C79_first (word : Char → Bool) (text : Str) : MagicFirst word text ↔ ∃ k rest, Header word text k rest 1 := by
  constructor
  · rintro ⟨l, ⟨hn, t', rfl, ht⟩, ⟨ind, t, rfl, hi⟩, hm⟩
    have hd := (declares_blanks word hi _).1 hm
    obtain ⟨k, hk⟩ := cleared_exists hd
    exact ⟨k, t', by
      rw [List.append_assoc]
      exact .first hi ⟨t, rfl, fun h => hn (by simp [h])⟩ hk ht⟩
  · rintro ⟨k, rest, h⟩
    generalize hn : 1 = n at h
    cases h with
    | @first ind c k rest hi hc hk ht =>
      obtain ⟨t, rfl, hn⟩ := hc
      have hni : '\n' ∉ ind := fun h => absurd (hi _ h) (by decide)
      refine ⟨ind ++ '#' :: t, ⟨by simp [hni, hn], rest, by simp, ht⟩, ⟨ind, t, rfl, hi⟩, ?_⟩
      exact (declares_blanks word hi _).2 (cleared_declares hk)
    | second => cases hn
    | blank => cases hn

/-- … or on the second. -/
theorem C79_second (word : Char → Bool) (text : Str) : MagicSecond word text ↔ ∃ k rest, Header word text k rest 2 := by
  constructor
  · rintro ⟨l1, l2, hf, ⟨l1', t, hn1', rfl, hn2, t', rfl, ht⟩, h1, ⟨ind', t2, rfl, hi'⟩, hm⟩
    obtain rfl : l1 = l1' := hf.unique ⟨hn1', _, rfl, .inr ⟨_, rfl⟩⟩
    have hd := (declares_blanks word hi' _).1 hm
    obtain ⟨k, hk⟩ := cleared_exists hd
    have hc2 : CommentText ('#' :: t2) := ⟨t2, rfl, fun h => hn2 (by simp [h])⟩
    rcases h1 with hb | ⟨⟨ind, t1, rfl, hi⟩, hnd⟩
    · exact ⟨k, t', by
        rw [List.append_assoc]
        exact .blank hb hi' hc2 hk ht⟩
    · refine ⟨'#' :: t1 ++ '\n' :: k, t', ?_⟩
      rw [List.append_assoc, List.append_assoc]
      exact .second hi ⟨t1, rfl, fun h => hn1' (by simp [h])⟩ (fun h => hnd ((declares_blanks word hi _).2 h)) hi' hc2 hk ht
  · rintro ⟨k, rest, h⟩
    generalize hn : 2 = n at h
    cases h with
    | first => cases hn
    | @second ind c ind' c' k rest hi hc hnd hi' hc' hk ht =>
      obtain ⟨t, rfl, hn1⟩ := hc
      obtain ⟨t2, rfl, hn2⟩ := hc'
      have hni : '\n' ∉ ind := fun h => absurd (hi _ h) (by decide)
      have hni' : '\n' ∉ ind' := fun h => absurd (hi' _ h) (by decide)
      refine ⟨ind ++ '#' :: t, ind' ++ '#' :: t2, ⟨by simp [hni, hn1], '\n' :: (ind' ++ ('#' :: t2 ++ rest)), by simp, .inr ⟨_, rfl⟩⟩,
        ⟨ind ++ '#' :: t, ind' ++ ('#' :: t2 ++ rest), by simp [hni, hn1], by simp, by simp [hni', hn2], rest, by simp, ht⟩,
        .inr ⟨⟨ind, t, rfl, hi⟩, fun h => hnd ((declares_blanks word hi _).1 h)⟩, ⟨ind', t2, rfl, hi'⟩, ?_⟩
      exact (declares_blanks word hi' _).2 (cleared_declares hk)
    | @blank ind ind' c' k rest hi hi' hc' hk ht =>
      obtain ⟨t2, rfl, hn2⟩ := hc'
      have hni : '\n' ∉ ind := fun h => absurd (hi _ h) (by decide)
      have hni' : '\n' ∉ ind' := fun h => absurd (hi' _ h) (by decide)
      refine ⟨ind, ind' ++ '#' :: t2, ⟨hni, _, rfl, .inr ⟨_, rfl⟩⟩,
        ⟨ind, ind' ++ ('#' :: t2 ++ rest), hni, by simp, by simp [hni', hn2], rest, by simp, ht⟩,
        .inl hi, ⟨ind', t2, rfl, hi'⟩, ?_⟩
      exact (declares_blanks word hi' _).2 (cleared_declares hk)

theorem run_not_nil {m : Mode} {x : Cat} {s r : Str} (h : Reads m x s r) :
    ∀ {k : TextEnd} {sq pth : Nat} {w : Str}, x ≠ .run k sq pth w .nil := by
  induction h with
  | runChar _ _ ih => intro k sq pth w h; cases h; exact ih rfl
  | _ => intro k sq pth w h; cases h

/-- The pieces of a source with a header. -/
theorem header_file (e : PEnv) (he : e.outputPython = true) (input : Option Str) {xs : ExprText} {src k rest : Str} {l : Nat}
    (hh : Header e.word src k rest l) (h : Reads (modeOf e) (.text .file 0 0 xs) rest []) (hne : rest ≠ []) (hcr : '\r' ∉ src) :
    ∃ hd nodes, HeaderNodes hd k ∧ TextTrees true xs nodes ∧ ∃ N, ∀ n, N ≤ n →
      (P e n).parse e.inputFile (PSt.start e input src) = .ok (hd ++ nodes, { PSt.start e input src with shrink := l }) := by
  obtain ⟨s', hd, hp, hs', hk⟩ := psHeader_eq e.word { txt := src, loc := some ⟨e.inputFile, 0⟩ } hcr hh
  obtain ⟨src', nodes, h1, h2, h3, N, h4⟩ := C61_reading e h s' hs'
  have hnn : nodes ≠ [] := by
    rintro rfl
    cases h2
    cases h with
    | textEnd he => cases he; exact hne rfl
    | textChar _ h => exact run_not_nil h rfl
  refine ⟨hd, nodes, hk, h2, N + 1, fun n hn => ?_⟩
  obtain ⟨m, rfl⟩ : ∃ m, n = m + 1 := ⟨n - 1, by omega⟩
  change psParse e (P e m) e.inputFile _ = _
  have hu := C12_no_cr_id src hcr
  have hfind : (PSt.start e input src).world.find e.inputFile = some (.path input, src) := by
    simp [PSt.start, World.find, hu]
  unfold psParse
  have hget : PM.get (PSt.start e input src) = .ok (PSt.start e input src, PSt.start e input src) := rfl
  rw [pm_bind_ok hget, hfind]
  have hsne : src ≠ [] := by
    cases hh <;> rename_i hc _ _ <;> first | (obtain ⟨t, rfl, _⟩ := hc; simp) | simp
  cases hsc : src with
  | nil => exact absurd hsc hsne
  | cons c s =>
    have hp' := hp
    rw [hsc] at hp'
    dsimp only
    rw [if_pos (by simp [he]), hp']
    dsimp only
    rw [← hsc]
    have hset : PM.set { PSt.start e input src with shrink := l } (PSt.start e input src) =
        .ok ((), { PSt.start e input src with shrink := l }) := rfl
    rw [pm_bind_ok hset]
    unfold psRun
    rw [if_neg (by rw [hs']; simpa using hne)]
    have h5 := h4 m (by omega) { PSt.start e input src with shrink := l }
    change (P e m).text .eof _ _ = _ at h5
    rw [pm_bind_ok h5]
    cases nodes with
    | nil => exact absurd rfl hnn
    | cons => rfl

/-- Comments that are kept generate themselves. -/
theorem header_generates {e : EEnv} {hd nodes : List Node} {k : Str} (hk : HeaderNodes hd k) {ind : Indent} {s : ESt} {o : Yield}
    (h : Generates e (if hd = [] then ind else .no) false nodes s o) : Generates e ind false (hd ++ nodes) s (o.after k) := by
  obtain ⟨rs, rfl, rfl, _⟩ := hk
  have key : ∀ (rs : List Src) (ind : Indent), Generates e (if rs.map Node.remark = [] then ind else .no) false nodes s o →
      Generates e ind false (rs.map Node.remark ++ nodes) s (o.after (rs.map (·.txt)).flatten) := by
    intro rs
    induction rs with
    | nil => intro ind h; cases o <;> simpa [Yield.after] using h
    | cons r rs ih =>
      intro ind h
      have h' : Generates e .no false nodes s o := by simpa using h
      have := Generates.item (ind := ind) (cut := false) (x := .remark r) ⟨(by rintro ⟨_, _, _, h⟩; cases h), by simp⟩
        (v := .remark r) (s1 := s) ⟨1, rfl⟩
        (.value (by simp) (by simp) (by simp) (by simp) (by simp) (by simp)) (.remark r) (ih .no (by simpa using h'))
      cases o <;> simpa [Yield.after, itemText, shown] using this
  exact key rs ind h

theorem remark_generates {e : EEnv} {r : Src} {xs : List Node} {ind : Indent} {s : ESt} {o : Yield}
    (h : Generates e ind false (.remark r :: xs) s o) : ∃ o', o = o'.after r.txt ∧ Generates e .no false xs s o' := by
  have hev : Evaluates e (.remark r) s (.remark r) s := ⟨1, rfl⟩
  have hi : ∀ {v a}, v = Node.remark r → Item v a → a = .remark r := by
    intro v a hv h
    cases h <;> simp_all
  cases h with
  | nothing _ h1 h2 _ => rw [(evaluates_det h1 hev).1] at h2; simp at h2
  | item _ h1 h2 _ h3 =>
    obtain ⟨h4, rfl⟩ := evaluates_det h1 hev
    rw [hi h4 h2]
    exact ⟨_, rfl, h3⟩
  | waits _ h1 h2 h4 _ =>
    rw [hi (evaluates_det h1 hev).1 h2] at h4
    exact absurd (.remark r) h4
  | definition _ h1 _ _ => cases (evaluates_det h1 hev).1
  | lastDefinition _ h1 => cases (evaluates_det h1 hev).1
  | block _ h1 _ => cases (evaluates_det h1 hev).1
  | skip _ h1 _ => cases (evaluates_det h1 hev).1
  | fails _ h1 =>
    have h1 := raises_iff.1 h1
    rw [evaluates_iff.1 hev] at h1
    cases h1

theorem generates_header {e : EEnv} {hd nodes : List Node} {k : Str} (hk : HeaderNodes hd k) {ind : Indent} {s : ESt} {o : Yield}
    (h : Generates e ind false (hd ++ nodes) s o) :
    ∃ o', o = o'.after k ∧ Generates e (if hd = [] then ind else .no) false nodes s o' := by
  obtain ⟨rs, rfl, rfl, _⟩ := hk
  have key : ∀ (rs : List Src) (ind : Indent) (o : Yield), Generates e ind false (rs.map Node.remark ++ nodes) s o →
      ∃ o', o = o'.after (rs.map (·.txt)).flatten ∧ Generates e (if rs.map Node.remark = [] then ind else .no) false nodes s o' := by
    intro rs
    induction rs with
    | nil => intro ind o h; exact ⟨o, by cases o <;> rfl, by simpa using h⟩
    | cons r rs ih =>
      intro ind o h
      obtain ⟨o1, rfl, h1⟩ := remark_generates h
      obtain ⟨o2, rfl, h2⟩ := ih _ _ h1
      exact ⟨o2, by cases o2 <;> simp [Yield.after], by simpa using h2⟩
  exact key rs ind o h

/-- **C79**. A Python source with a header: what is written is what is left of the header, followed by the text the rest
    generates. The number of the line of the magic comment is reported. -/
theorem C79_program (e : EEnv) (he : e.pe.outputPython = true) (readable : Node → Str) (input : Option Str) (seen : List Node)
    {xs : ExprText} {src k rest : Str} {l : Nat} (hh : Header e.pe.word src k rest l)
    (h : Reads (modeOf e.pe) (.text .file 0 0 xs) rest []) (hne : rest ≠ []) (hcr : '\r' ∉ src) :
    ∃ nodes, TextTrees true xs nodes ∧
      (∀ o, Generates e (if k = [] then .str [] else .no) false nodes
          { p := { PSt.start e.pe input src with shrink := l }, seen := seen } o →
        ∃ run, Translates e readable input seen src run ∧ Reports (o.after k) run) ∧
      ∀ run, Translates e readable input seen src run →
        ∃ o, Generates e (if k = [] then .str [] else .no) false nodes
          { p := { PSt.start e.pe input src with shrink := l }, seen := seen } o ∧ Reports (o.after k) run := by
  obtain ⟨hd, nodes, hk, h2, N, hp⟩ := header_file e.pe he input hh h hne hcr
  have hnil : hd = [] ↔ k = [] := by
    obtain ⟨rs, rfl, rfl, h⟩ := hk
    constructor
    · intro h; rw [List.map_eq_nil_iff.1 h]; rfl
    · intro h'; rw [h h']; rfl
  refine ⟨nodes, h2, fun o ho => ?_, fun run hrun => ?_⟩
  · refine run_made hp (textMade_of (generates_made (header_generates hk ?_)))
    simpa only [hnil] using ho
  · obtain ⟨o, ho, hr⟩ := made_run hp hrun
    obtain ⟨o', rfl, ho'⟩ := generates_header hk ho
    exact ⟨o', by simpa only [hnil] using ho', hr⟩

/-- **C79**. A source that ends with its header is not translated: an exception is raised. -/
theorem C79_header_only (e : EEnv) (he : e.pe.outputPython = true) (readable : Node → Str) (input : Option Str) (seen : List Node)
    {src k : Str} {l : Nat} (hh : Header e.pe.word src k [] l) (hcr : '\r' ∉ src) (run : Run) :
    Translates e readable input seen src run ↔ run = { raw := .raised } := by
  have hp : (P e.pe 1).parse e.pe.inputFile (PSt.start e.pe input src) = .err := by
    obtain ⟨s', hd, hp, hs', hk⟩ := psHeader_eq e.pe.word { txt := src, loc := some ⟨e.pe.inputFile, 0⟩ } hcr hh
    change psParse e.pe (P e.pe 0) e.pe.inputFile _ = _
    have hu := C12_no_cr_id src hcr
    have hfind : (PSt.start e.pe input src).world.find e.pe.inputFile = some (.path input, src) := by
      simp [PSt.start, World.find, hu]
    unfold psParse
    have hget : PM.get (PSt.start e.pe input src) = .ok (PSt.start e.pe input src, PSt.start e.pe input src) := rfl
    rw [pm_bind_ok hget, hfind]
    have hsne : src ≠ [] := by
      cases hh <;> rename_i hc _ _ <;> first | (obtain ⟨t, rfl, _⟩ := hc; simp) | simp
    cases hsc : src with
    | nil => exact absurd hsc hsne
    | cons c s =>
      have hp' := hp
      rw [hsc] at hp'
      dsimp only
      rw [if_pos (by simp [he]), hp']
      dsimp only
      rw [← hsc]
      have hset : PM.set { PSt.start e.pe input src with shrink := l } (PSt.start e.pe input src) =
          .ok ((), { PSt.start e.pe input src with shrink := l }) := rfl
      rw [pm_bind_ok hset]
      unfold psRun
      rw [if_pos (by rw [hs']; rfl)]
      rfl
  have hr : Translates e readable input seen src { raw := .raised } := ⟨1, by unfold runAt; rw [hp]⟩
  exact ⟨fun h => translates_det h hr, fun h => h ▸ hr⟩

/-! ## The text Python asks the codec to decode -/

theorem readline_line {l t : Str} (h : '\n' ∉ l) : readline (l ++ '\n' :: t) = l ++ ['\n'] := by
  induction l with
  | nil => simp [readline]
  | cons c l ih =>
    simp only [List.mem_cons, not_or] at h
    simp [readline, Ne.symm h.1, ih h.2]

/-- **C79**. Python reads the line with the magic comment itself and gives the codec the rest; the codec puts the header
    back before it. The text it translates is that of the file if the magic comment is in the first line and that has
    `coding:` … -/
theorem C79_whole_first {l data : Str} (hn : '\n' ∉ l) (hc : ColonFirst (l ++ '\n' :: data)) :
    readHeader (some (l ++ '\n' :: data)) ++ data = l ++ '\n' :: data := by
  have h := (readline_colon _).2 hc
  unfold readHeader
  dsimp only
  rw [if_pos h, readline_line hn]
  simp

/-- … or if it is in the second and the first does not have it. -/
theorem C79_whole_second {l₁ l₂ data : Str} (h₁ : '\n' ∉ l₁) (h₂ : '\n' ∉ l₂)
    (hc : ¬ ColonFirst (l₁ ++ '\n' :: (l₂ ++ '\n' :: data))) :
    readHeader (some (l₁ ++ '\n' :: (l₂ ++ '\n' :: data))) ++ data = l₁ ++ '\n' :: (l₂ ++ '\n' :: data) := by
  have h := mt (readline_colon _).1 hc
  unfold readHeader
  dsimp only
  rw [if_neg h, readline_line h₁]
  have : (l₁ ++ '\n' :: (l₂ ++ '\n' :: data)).drop (l₁ ++ ['\n']).length = l₂ ++ '\n' :: data := by
    rw [show l₁ ++ '\n' :: (l₂ ++ '\n' :: data) = (l₁ ++ ['\n']) ++ (l₂ ++ '\n' :: data) by simp, List.drop_left]
  rw [this, readline_line h₂]
  simp

/-- The full property is false: with `# coding=yupp` in the first line the second line is translated twice … -/
theorem C79_line_doubled {l₁ l₂ data : Str} (h₁ : '\n' ∉ l₁) (h₂ : '\n' ∉ l₂)
    (hc : ¬ ColonFirst (l₁ ++ '\n' :: (l₂ ++ '\n' :: data))) :
    readHeader (some (l₁ ++ '\n' :: (l₂ ++ '\n' :: data))) ++ (l₂ ++ '\n' :: data) =
      l₁ ++ '\n' :: (l₂ ++ '\n' :: (l₂ ++ '\n' :: data)) := by
  have := C79_whole_second h₁ h₂ hc
  have h3 : readHeader (some (l₁ ++ '\n' :: (l₂ ++ '\n' :: data))) = l₁ ++ '\n' :: (l₂ ++ ['\n']) := by
    apply List.append_cancel_right (bs := data)
    rw [this]; simp
  rw [h3]; simp

/-- … and with `coding:` in both lines the second is lost. -/
theorem C79_line_lost {l₁ l₂ data : Str} (h₁ : '\n' ∉ l₁)
    (hc : ColonFirst (l₁ ++ '\n' :: (l₂ ++ '\n' :: data))) :
    readHeader (some (l₁ ++ '\n' :: (l₂ ++ '\n' :: data))) ++ data = l₁ ++ '\n' :: data := by
  have h := (readline_colon _).2 hc
  unfold readHeader
  dsimp only
  rw [if_pos h, readline_line h₁]
  simp

theorem headerRead_whole {t data : Str} (h : HeaderRead t data) : readHeader (some t) ++ data = t := by
  cases h with
  | first h1 h2 => exact C79_whole_first h1 h2
  | second h1 h2 h3 => exact C79_whole_second h1 h2 h3

/-- **C79**. The rest of a file, given to the codec in chunks of any size: nothing comes out before the end, and then the
    translation of the whole file, if Python accepts it; nothing if it does not or if the translation fails. -/
theorem C79_file_translated {t data : Str} (hh : HeaderRead t data) (parses : Str → Bool) (proc : Str → Prog (Bool × Plain × Str × Nat))
    (base : List UInt8 → Option (Str × Nat)) (chunks : List (List UInt8)) (last : List UInt8) (n : Nat)
    (hb : base (chunks.flatten ++ last) = some (data, n)) (hne : chunks.flatten ++ last ≠ []) (o : Oracle) (s s' : Sys) {ok : Bool}
    {code : Plain} {fno : Str} {shrink : Nat} (hp : proc t o s = .done (ok, code, fno, shrink) s') :
    feed (fun b => match decode false parses proc base (some t) b o s with | .done r _ => some r | _ => none) [] chunks last =
      some (List.replicate chunks.length [] ++ [if ok = true ∧ parses code.txt = true then code.txt else []]) := by
  refine C44_chunking _ chunks last _ n ?_ hne
  unfold decode decodeStream
  rw [hb]
  dsimp only
  rw [headerRead_whole hh, hp]
  cases ok <;> cases hq : parses code.txt <;> simp [hq]

/-! ## Cases -/

theorem declaring_no_y {pre kw sp : Str} {sep : Char} (hpre : ∀ c ∈ pre, c.toLower ≠ 'y')
    (hk : kw.map Char.toLower = ['c', 'o', 'd', 'i', 'n', 'g']) (hsep : sep = ':' ∨ sep = '=') (hsp : Blanks sp) :
    ∀ c ∈ pre ++ (kw ++ sep :: sp), c.toLower ≠ 'y' := by
  intro c hc
  simp only [List.mem_append, List.mem_cons] at hc
  rcases hc with hc | hc | hc | hc
  · exact hpre c hc
  · have : c.toLower ∈ kw.map Char.toLower := List.mem_map_of_mem hc
    rw [hk] at this
    intro h
    rw [h] at this
    revert this
    decide
  · rcases hsep with rfl | rfl <;> rw [hc] <;> decide
  · rcases hsp c hc with rfl | rfl <;> decide

theorem firstDeclared_of {word : Char → Bool} {pre kw sp y u : Str} {sep : Char} (hpre : ∀ c ∈ pre, c.toLower ≠ 'y')
    (hk : kw.map Char.toLower = ['c', 'o', 'd', 'i', 'n', 'g']) (hsep : sep = ':' ∨ sep = '=') (hsp : Blanks sp)
    (hy : y.map Char.toLower = ['y', 'u', 'p', 'p']) (hu : WordEnd word u) :
    FirstDeclared word (pre ++ (kw ++ (sep :: (sp ++ (y ++ u))))) u := by
  refine ⟨pre, _, rfl, ⟨kw, sep, sp, y, rfl, hk, hsep, hsp, hy, hu⟩, ?_⟩
  rintro a b v hab hl ⟨kw', sep', sp', y', rfl, hk', hsep', hsp', hy', -⟩
  have lk : kw.length = 6 := by simpa using congrArg List.length hk
  have lk' : kw'.length = 6 := by simpa using congrArg List.length hk'
  have hP := declaring_no_y hpre hk hsep hsp
  have hlen : (pre ++ (kw ++ sep :: sp)).length ≤ (a ++ (kw' ++ sep' :: sp')).length := by
    refine Nat.le_of_not_lt fun h => ?_
    obtain ⟨y0, yt, rfl⟩ : ∃ y0 yt, y' = y0 :: yt := by
      cases y' with
      | nil => cases hy'
      | cons c t => exact ⟨_, _, rfl⟩
    have h0 : y0.toLower = 'y' := (List.cons.inj hy').1
    have e : (pre ++ (kw ++ sep :: sp)) ++ (y ++ u) = (a ++ (kw' ++ sep' :: sp')) ++ (y0 :: (yt ++ v)) := by simpa using hab
    have h1 := congrArg (fun l => l[(a ++ (kw' ++ sep' :: sp')).length]?) e
    simp only [List.getElem?_append_left h, List.getElem?_append_right (Nat.le_refl _), Nat.sub_self, List.getElem?_cons_zero] at h1
    exact hP _ (List.mem_of_getElem? h1) h0
  have e2 : pre ++ (kw ++ (sep :: (sp ++ (y ++ u)))) = (a ++ (kw' ++ [sep'])) ++ (sp' ++ (y' ++ v)) := by simpa using hab
  have h2 := congrArg (fun l => l[pre.length + 6]?) e2
  simp only [List.length_append, List.length_cons, lk, lk'] at hlen
  rw [List.getElem?_append_right (by omega), List.getElem?_append_right (by omega),
    List.getElem?_append_right (by simp; omega), List.getElem?_append_left (by simp; omega)] at h2
  have h3 : (sep :: (sp ++ (y ++ u)))[pre.length + 6 - pre.length - kw.length]? = some sep := by
    rw [show pre.length + 6 - pre.length - kw.length = 0 by omega]; rfl
  rw [h3] at h2
  have hb := hsp' _ (List.mem_of_getElem? h2.symm)
  rcases hsep with rfl | rfl <;> revert hb <;> decide

theorem wordEnd_dot (word : Char → Bool) (t : Str) : WordEnd word ('.' :: t) := by
  intro c hc
  obtain rfl : '.' = c := by simpa using hc
  refine ⟨?_, by decide, by simp⟩
  simp [NameStart]

/-- **C79**. The documented form of the magic comment, `# … coding: yupp.enc …`: `# … coding: enc …` is left. -/
theorem C79_base {word : Char → Bool} {pre kw sp enc post : Str} {sep : Char} (hpre : ∀ c ∈ pre, c.toLower ≠ 'y')
    (hk : kw.map Char.toLower = ['c', 'o', 'd', 'i', 'n', 'g']) (hsep : sep = ':' ∨ sep = '=') (hsp : Blanks sp)
    (he : enc ≠ []) (he' : ∀ c ∈ enc, NameStart c ∨ ('0' ≤ c ∧ c ≤ '9') ∨ c = '-') (hp : WordEnd word post) :
    Cleared word (pre ++ (kw ++ (sep :: (sp ++ (lit "yupp." ++ (enc ++ post)))))) (pre ++ (kw ++ (sep :: (sp ++ (enc ++ post))))) := by
  have hd : lit "yupp." = dotted := by decide
  have hf := firstDeclared_of (word := word) (y := ['y', 'u', 'p', 'p']) (u := '.' :: (enc ++ post)) hpre hk hsep hsp (by decide)
    (wordEnd_dot word _)
  have key := Cleared.base (word := word) (a := pre ++ (kw ++ (sep :: sp))) (b := enc ++ post) (u := '.' :: (enc ++ post))
    (by simpa [dotted] using hf) ⟨enc, post, rfl, he, he', hp⟩ (by
      intro p q h
      refine Nat.le_of_not_lt fun hl => ?_
      have h1 := congrArg (fun l => l[p.length]?) h
      rw [List.getElem?_append_left hl, List.getElem?_append_right (Nat.le_refl _), Nat.sub_self] at h1
      exact declaring_no_y hpre hk hsep hsp _ (List.mem_of_getElem? h1) (by decide))
  rw [hd]
  simpa using key

/-- **C79**. The other documented form, `# … coding: yupp …`: nothing is left. -/
theorem C79_gone {word : Char → Bool} {pre kw sp y u : Str} {sep : Char} (hpre : ∀ c ∈ pre, c.toLower ≠ 'y')
    (hk : kw.map Char.toLower = ['c', 'o', 'd', 'i', 'n', 'g']) (hsep : sep = ':' ∨ sep = '=') (hsp : Blanks sp)
    (hy : y.map Char.toLower = ['y', 'u', 'p', 'p']) (hu : WordEnd word u) (hd : u.head? ≠ some '.') :
    Cleared word (pre ++ (kw ++ (sep :: (sp ++ (y ++ u))))) [] :=
  .gone (firstDeclared_of hpre hk hsep hsp hy hu) (by rintro ⟨enc, post, rfl, _⟩; simp at hd)

/-- The base encoding is left in the comment, and the line before is kept. -/
theorem C79_shebang : Header (fun _ => false) (lit "#!/bin/py\n# coding: yupp.utf-8\nx") (lit "#!/bin/py\n# coding: utf-8") (lit "\nx") 2 := by
  have hc := C79_base (word := fun _ => false) (pre := lit "# ") (kw := lit "coding") (sp := [' ']) (enc := lit "utf-8") (post := []) (sep := ':')
    (by decide) (by decide) (.inl rfl) (by intro c hc; simp at hc; exact .inl hc) (by decide)
    (fun c hc => (isEnc_iff c).1 ((by decide : ∀ c ∈ lit "utf-8", isEnc c = true) c hc)) (by intro c hc; cases hc)
  exact Header.second (ind := []) (c := lit "#!/bin/py") (ind' := []) (rest := lit "\nx")
      (by intro c hc; cases hc) ⟨lit "!/bin/py", by decide, by decide⟩ (by rw [← codingSearch_some]; decide)
      (by intro c hc; cases hc) ⟨lit " coding: yupp.utf-8", by decide, by decide⟩ hc (.inr ⟨_, rfl⟩)

/-- The translation of this source. -/
example (e : EEnv) (he : e.pe.outputPython = true) (hw : e.pe.word = fun _ => false) (readable : Node → Str) (input : Option Str) :
    ∃ run, Translates e readable input [] (lit "#!/bin/py\n# coding: yupp.utf-8\nx") run ∧ run.shrink = 2 ∧
      (run.raw = .str (lit "#!/bin/py\n# coding: utf-8\nx") ∨ ∃ r, run.raw = .res r ∧ r.txt = lit "#!/bin/py\n# coding: utf-8\nx") := by
  have hr := text_reads (m := modeOf e.pe) (.chars (lit "\nx") .nil) true 0 0
    ⟨plainOk_of_check _ (by decide) (by decide), rfl, 0, rfl, .inl rfl⟩ [] (fun _ => rfl)
  obtain ⟨nodes, ht, h, -⟩ := C79_program e he readable input [] (src := lit "#!/bin/py\n# coding: yupp.utf-8\nx")
    (by rw [hw]; exact C79_shebang) (xs := .chars (lit "\nx") .nil) (by
      simp only [tailOf, if_true, List.append_nil] at hr
      exact hr) (by decide) (by decide)
  rw [if_neg (by decide)] at h
  generalize hx : ExprText.chars (lit "\nx") .nil = x at ht
  cases ht with
  | @chars _ w i xs ns hi hn =>
    obtain ⟨h1, rfl⟩ := ExprText.chars.inj hx
    cases hn
    obtain ⟨run, h2, h3, -, -, h4⟩ := h _ (.plain .nil)
    refine ⟨run, h2, h4, ?_⟩
    rw [← h1] at h3
    have hf : fragment e.cfg (lit "\nx") (false || false) = lit "\nx" := by simp [fragment]
    have hk : lit "#!/bin/py\n# coding: utf-8" ++ (lit "\nx" ++ []) = lit "#!/bin/py\n# coding: utf-8\nx" := by decide
    rw [hf, hk] at h3
    exact h3
  | _ => cases hx

/-- In capitals `yupp.` is not found: the comment is doubled up. -/
theorem C79_capitals (word : Char → Bool) : Cleared word (lit "# coding: YUPP.utf8") (lit "# coding: YUPP.utfding: YUPP.utf8") := by
  refine .capitals (u := lit ".utf8") ?_ ⟨lit "utf8", [], by decide, by decide, ?_, by intro c hc; cases hc⟩ ?_
  · exact firstDeclared_of (word := word) (pre := lit "# ") (kw := lit "coding") (sp := [' ']) (y := lit "YUPP") (sep := ':') (by decide)
      (by decide) (.inl rfl) (by intro c hc; simp at hc; exact .inl hc) (by decide) (wordEnd_dot word _)
  · exact fun c hc => (isEnc_iff c).1 ((by decide : ∀ c ∈ lit "utf8", isEnc c = true) c hc)
  · intro p q h
    have := (findIdx_isSome dotted (lit "# coding: YUPP.utf8") (by decide)).2 ⟨p, q, h⟩
    revert this
    decide

/-- The first `yupp.` is removed, even if it is not the one of the declaration: the encoding stays `yupp`. -/
theorem C79_wrong_one (word : Char → Bool) :
    Cleared word (lit "# yupp. coding: yupp.utf8") (lit "#  coding: yupp.utf8") := by
  refine .base (a := lit "# ") (b := lit " coding: yupp.utf8") (u := lit ".utf8") ⟨lit "# yupp. ", lit "coding: yupp.utf8", rfl,
    ⟨lit "coding", ':', [' '], lit "yupp", by decide, by decide, .inl rfl, (by intro c hc; simp at hc; exact .inl hc), by decide,
      wordEnd_dot word _⟩, ?_⟩ ⟨lit "utf8", [], by decide, by decide, ?_, by intro c hc; cases hc⟩ ?_
  · rintro a b v hab hl ⟨kw, sep, sp, y, rfl, hk, -⟩
    obtain ⟨k0, kt, rfl⟩ : ∃ k0 kt, kw = k0 :: kt := by
      cases kw with
      | nil => cases hk
      | cons c t => exact ⟨_, _, rfl⟩
    have h0 : k0.toLower = 'c' := (List.cons.inj hk).1
    have h1 := congrArg (fun l => l[a.length]?) hab
    have e : lit "# " ++ (dotted ++ lit " coding: yupp.utf8") = lit "# yupp. " ++ lit "coding: yupp.utf8" := by decide
    simp only [e] at h1
    rw [List.getElem?_append_left hl, List.getElem?_append_right (Nat.le_refl _), Nat.sub_self] at h1
    exact (by decide : ∀ c ∈ lit "# yupp. ", c.toLower ≠ 'c') _ (List.mem_of_getElem? h1) h0
  · exact fun c hc => (isEnc_iff c).1 ((by decide : ∀ c ∈ lit "utf8", isEnc c = true) c hc)
  · intro p q h
    refine Nat.le_of_not_lt fun hl => ?_
    have h1 := congrArg (fun l => l[p.length]?) h
    rw [List.getElem?_append_left hl, List.getElem?_append_right (Nat.le_refl _), Nat.sub_self] at h1
    exact (by decide : ∀ c ∈ lit "# ", c ≠ 'y') _ (List.mem_of_getElem? h1) rfl

/-- Files that are read so: the declaration on the first line, and on the second. -/
example : HeaderRead (lit "# coding: yupp\nx = 1\n") (lit "x = 1\n") :=
  .first (l := lit "# coding: yupp") (by decide) ⟨lit "# coding: yupp", lit "# ", lit " yupp", ⟨by decide, _, rfl, .inr ⟨_, rfl⟩⟩, by decide⟩

example : HeaderRead (lit "#!/usr/bin/python\n# -*- coding: yupp -*-\nx\n") (lit "x\n") :=
  .second (l₁ := lit "#!/usr/bin/python") (l₂ := lit "# -*- coding: yupp -*-") (by decide) (by decide) (by rw [← readline_colon]; decide)

end Yupp
