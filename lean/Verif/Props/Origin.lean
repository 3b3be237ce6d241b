import Verif.Lemmas.FreeOrigin
import Verif.Spec.Eval
/-!
# Origins in a translation: C62, C63
-/

namespace Yupp
open Spec

theorem seen_placed {cfg repr w} {seen : List Node} (h : ∀ l ∈ leavesL seen, MadeOf [] l) :
    ∀ l ∈ leavesL seen, Placed cfg repr w l := fun l hl => placed_madeOf (h l hl) (by intro l hl; cases hl)

/-- What holds after a translation. -/
theorem placed_run (e : EEnv) (hp : Honest e) (hn : Names e.pe) {n : Nat} {input : Option Str} {seen : List Node} {text : Str}
    (hseen : ∀ l ∈ leavesL seen, MadeOf [] l) {xs : List Node} {st : PSt} {v : Node} {s : ESt}
    (hpar : (P e.pe n).parse e.pe.inputFile (PSt.start e.pe input text) = .ok (xs, st))
    (hev : E e n (.text xs) { p := st, seen := seen } = .ok (v, s)) :
    Sound s.p.world ∧ (PSt.start e.pe input text).world.Le s.p.world ∧
    (∀ l ∈ s.leaves, Placed e.cfg e.repr s.p.world l) ∧ ∀ l ∈ v.leaves, Placed e.cfg e.repr s.p.world l := by
  obtain ⟨h1, h2, h3⟩ := placed_parse hn (start_sound hn input text) hpar
  obtain ⟨⟨h4, h5⟩, h6, h7⟩ := E_keep (placed_keeps hp hn) n (.text xs) { p := st, seen := seen } v s
    ⟨h1, by simpa [ESt.leaves] using seen_placed hseen⟩ (by simpa [Node.leaves] using h3) hev
  exact ⟨h4, h2.trans h6, h5, h7⟩

/-- **C62**. In every translation with browsing information, for every character of the result that was copied from a
    located fragment: reading the tables at its position gives the innermost reference of the fragment and the index in
    it, and the character of the source at that place is the character (before the replacement of steady blanks). The
    cells are those of the trees the text was made of. -/
theorem C62_every_character (e : EEnv) (readable : Node → Str) (hp : Honest e) (hn : Names e.pe) {n : Nat}
    {input : Option Str} {seen : List Node} {text : Str} {run : Run} {r : Res} (hseen : ∀ l ∈ leavesL seen, MadeOf [] l)
    (h : runAt e readable n input seen text = .ok run) (hr : pp e.cfg run.raw = (true, .res r)) :
    ∃ xs st v s, (P e.pe n).parse e.pe.inputFile (PSt.start e.pe input text) = .ok (xs, st) ∧
      E e n (.text xs) { p := st, seen := seen } = .ok (v, s) ∧
      ∃ cs, Made e.cfg e.repr s.p.world r (steadyCells cs) ∧ r.txt = Spec.text (steadyCells cs) ∧
        ∀ (i : Nat) (c : Cell) (o : Origin), cs[i]? = some c → c.org = some o →
          resolve r i = some (o.file, o.pos, (o.idx : Int)) ∧ references r i = o.outer ++ [(o.file, o.pos)] ∧
          Right s.p.world o c.ch := by
  unfold runAt at h
  split at h
  · cases h; cases hr
  · cases h
  · next xs st hpar =>
    split at h
    · cases h; cases hr
    · cases h
    · next v s hev =>
      cases h
      refine ⟨xs, st, v, s, hpar, hev, ?_⟩
      obtain ⟨_, _, _, hv⟩ := placed_run e hp hn hseen hpar hev
      cases hraw : rawOf e readable s v with
      | raised => rw [hraw] at hr; cases hr
      | tree t => rw [hraw] at hr; cases hr
      | str t => rw [hraw] at hr; cases hr
      | res r0 =>
        rw [hraw] at hr
        cases hr
        have : v = .result r0 := by
          unfold rawOf at hraw
          split at hraw
          · cases hraw; rfl
          · split at hraw <;> cases hraw
        subst this
        obtain ⟨cs, hm, hrc⟩ := hv (.res r0) (by simp [Node.leaves])
        have hm2 := Made.steady _ _ (Made.reduce _ _ hm)
        obtain ⟨orig, hinv⟩ := made_inv hm2
        refine ⟨reduceCells e.cfg cs, hm2, hinv.txt, fun i c o hc ho => ⟨?_, ?_, ?_⟩⟩
        · refine hinv.resolve i { c with ch := if c.ch = 'ÿ' then '\t' else if c.ch = 'þ' then ' ' else c.ch } o ?_ ho
          unfold steadyCells
          rw [List.getElem?_map, hc]
          rfl
        · refine hinv.references i { c with ch := if c.ch = 'ÿ' then '\t' else if c.ch = 'þ' then ' ' else c.ch } o ?_ ho
          unfold steadyCells
          rw [List.getElem?_map, hc]
          rfl
        · exact hrc c (reduceCells_sub _ _ c (List.mem_of_getElem? hc)) o ho

/-- **C62**. A character copied from a file stands in the file at the position of the reference plus the index; a
    character of an evaluated text stands in that text, and the reference is the last of the place's. -/
theorem C62_in_a_file {w : World} {o : Origin} {ch : Char} (h : Right w o ch) :
    (∃ name d d' txt, ∃ k : Nat, (name, d, txt) ∈ w.source ∧ isDigits name = false ∧ (∃ t, (name, d', t) ∈ w.source) ∧
      o.file = shownName name d' ∧ o.pos = k ∧ txt[k + o.idx]? = some ch) ∨
    (∃ name d txt, ∃ k : Nat, (name, d, txt) ∈ w.source ∧ isDigits name = true ∧ txt[k + o.idx]? = some ch ∧
      Refs w ⟨name, k⟩ (o.outer ++ [(o.file, o.pos)])) := by
  obtain ⟨name, k, d, txt, h1, h2, h3⟩ := h
  cases hd : isDigits name with
  | true => exact .inr ⟨name, d, txt, k, h1, hd, h2, h3⟩
  | false =>
    left
    generalize hrs : o.outer ++ [(o.file, o.pos)] = rs at h3
    cases h3 with
    | file hm _ =>
      have h4 : (_, _) = (o.file, o.pos) := (List.append_inj' (s₁ := []) (t₁ := [_]) hrs.symm rfl).2 |> List.cons.inj |>.1
      exact ⟨name, d, _, txt, k, h1, hd, ⟨_, hm⟩, (congrArg Prod.fst h4).symm, (congrArg Prod.snd h4).symm, h2⟩
    | both _ hd' => rw [hd] at hd'; cases hd'
    | declared _ hd' => rw [hd] at hd'; cases hd'

theorem start_names {e : PEnv} (hn : Names e) {input : Option Str} {text f : Str} {d t}
    (hm : (f, d, t) ∈ (PSt.start e input text).world.source) : isDigits f = false := by
  simp only [PSt.start, List.mem_cons, List.not_mem_nil, or_false] at hm
  rcases hm with hm | hm
  · cases hm; exact hn.input
  · cases hm; decide

theorem mem_srcsList {y : Node} {s : Src} : ∀ {xs : List Node}, y ∈ xs → s ∈ y.srcs → s ∈ srcsList xs
  | x :: xs, hy, hs => by
    simp only [srcsList, List.mem_append]
    rcases List.mem_cons.mp hy with rfl | hy
    · exact .inl hs
    · exact .inr (mem_srcsList hy hs)

/-- **C62**. No place is lost in a text without macros: with browsing information, every position of the result, reduced
    or not, leads to the input file and to the place where the character stands in it. String literals lose their places
    except for Python (`re` groups are plain strings), so there are none in the text or it is for Python. -/
theorem C62_macro_free_text (e : EEnv) (readable : Node → Str) (input : Option Str) (seen : List Node) (text : Str)
    (hn : Names e.pe) (hnull : e.pe.inputFile ≠ lit "<null>") (hf : MacroFree (unifyEol text))
    (hh : e.pe.outputPython = true → psHeader e.pe.word { txt := unifyEol text, loc := some ⟨e.pe.inputFile, 0⟩ } = none)
    (hb : e.pe.outputPython = true ∨ ('"' ∉ unifyEol text ∧ '\'' ∉ unifyEol text)) {run : Run} {r : Res}
    (h : Translates e readable input seen text run) (hr : pp e.cfg run.raw = (true, .res r)) :
    ∀ i, i < r.txt.length → ∃ p d : Nat, resolve r i = some (shownName e.pe.inputFile (.path input), (p : Int), (d : Int)) ∧
      ((unifyEol text)[p + d]?).map steady = r.txt[i]? := by
  obtain ⟨n, h⟩ := h
  unfold runAt at h
  split at h
  · cases h; cases hr
  · cases h
  · next xs st hpar =>
    have hloc := free_parse_loc e.pe n input text hf hh hb hpar
    have hple := (P_le e.pe (Nat.le_add_right n ((unifyEol text).length + 2))).parse e.pe.inputFile (PSt.start e.pe input text)
    rw [hpar] at hple
    have hpar' := (hple.resolve_left (by simp)).symm
    obtain ⟨hfrag, hst⟩ : (∀ x ∈ xs, Fragment x) ∧ st = PSt.start e.pe input text := by
      rcases free_parse e.pe (n + ((unifyEol text).length + 2)) input text hf hh (by omega) with ⟨h, _⟩ | ⟨ys, h, hy, _⟩
      · rw [hpar'] at h; cases h
      · rw [hpar'] at h; cases h; exact ⟨hy, rfl⟩
    subst hst
    split at h
    · cases h; cases hr
    · cases h
    · next v s hev =>
      cases h
      have h1 : ev e (.text xs) { p := PSt.start e.pe input text, seen := seen } =
          finishT e (.str []) xs { p := PSt.start e.pe input text, seen := seen } := by
        rw [ev_at]
        change ev e (.t xs (.str [])) _ = _
        rw [ev_at]
        change (evalT (ev e) (.str []) 0 false xs >>= fun ys => finishT e (.str []) ys) _ = _
        rw [em_bind_ok (evalT_fragments e xs hfrag _ _)]
      unfold finishT at h1
      rw [areTerms_fragments xs hfrag, if_pos rfl] at h1
      obtain ⟨rfl, rfl⟩ := evaluates_det ⟨n, hev⟩ (evaluates_iff.2 h1)
      cases hbr : e.cfg.browse with
      | false => rw [hbr] at hr; cases hr
      | true =>
        rw [hbr] at hr
        cases hr
        have hw := start_sound hn input text
        have hfound := (P_grow _ hpar).2
        have hleaf : ∀ l ∈ (Node.t xs (.str [])).leaves, Placed e.cfg e.repr (PSt.start e.pe input text).world l := by
          intro l hl
          simp only [Node.leaves, Indent.leaves, List.mem_append, List.mem_singleton] at hl
          rcases hl with rfl | hl
          · trivial
          · exact (placed_parse hn hw hpar).2.2 l hl
        have hres : ∀ r ∈ results (.t xs (.str [])), False := by
          intro r hr
          have hl := results_leaves _ r hr
          simp only [Node.leaves, Indent.leaves, List.mem_append, List.mem_singleton] at hl
          rcases hl with hl | hl
          · cases hl
          · exact rawL_leaves ((P_parsed e.pe n).parse _ _ _ _ hpar) _ hl
        have hright := right_tree e.cfg hw e.repr (fun _ => []) (.t xs (.str [])) (fun s hs => hleaf _ hs)
          (fun r hr => (hres r hr).elim)
        have hm := Made.tree (cfg := e.cfg) (repr := e.repr) _ (.t xs (.str [])) (fun _ => []) (World.Le.refl (PSt.start e.pe input text).world)
          (fun r hr => (hres r hr).elim)
        have horg := located_cells e.cfg (textExt e { p := PSt.start e.pe input text, seen := seen }) (fun _ => []) xs hloc (by
            intro y hy s hs l hl
            obtain ⟨d, txt, hmem, _⟩ := (hfound s (mem_srcsList hy hs)).1 l hl
            have hreg : Registered (PSt.start e.pe input text).world l.file := ⟨d, txt, hmem⟩
            have hrefs := loc_refs hw _ l hreg (rank_lt hw hreg)
            have hdig : isDigits l.file = false := start_names hn hmem
            change ((PSt.start e.pe input text).world.loc _ l).getLast?.isSome = true
            generalize hrs : List.map (fun x => x.2) ((PSt.start e.pe input text).world.loc
              ((PSt.start e.pe input text).world.inclusion.length + 1) l) = rs at hrefs
            have hne : rs ≠ [] := by
              cases hrefs with
              | file _ _ => simp
              | both _ hd => rw [hdig] at hd; cases hd
              | declared _ hd => rw [hdig] at hd; cases hd
            rw [List.getLast?_isSome]
            intro h0
            rw [h0] at hrs
            exact hne hrs.symm)
        have hm2 := Made.steady _ _ (Made.reduce _ _ hm)
        obtain ⟨orig, hinv⟩ := made_inv hm2
        intro i hi
        change i < (Res.txt (Res.replaceSteady (Res.reduceEmptiness e.cfg _))).length at hi
        have htxt := hinv.txt
        generalize hcs : reduceCells e.cfg (treeCells e.cfg _ (fun _ => []) (Node.t xs (.str []))) = cs at hinv htxt
        have hi2 : i < cs.length := by
          have := congrArg List.length htxt
          simp only [Spec.text, steadyCells, List.length_map] at this
          exact this ▸ hi
        have hc : cs[i]? = some cs[i] := List.getElem?_eq_getElem hi2
        have hin := reduceCells_sub e.cfg _ cs[i] (by rw [hcs]; exact List.getElem_mem hi2)
        have hin' : cs[i] ∈ treesCells e.cfg (textExt e { p := PSt.start e.pe input text, seen := seen }) (fun _ => []) xs := by
          rw [treeCells] at hin
          exact hin
        have hsome := horg _ hin'
        obtain ⟨o, ho⟩ := Option.isSome_iff_exists.mp hsome
        have hres2 := hinv.resolve i { cs[i] with ch := steady cs[i].ch } o (by
          unfold steadyCells
          rw [List.getElem?_map, hc]
          rfl) ho
        have htxti := congrArg (·[i]?) htxt
        simp only [Spec.text, steadyCells, List.getElem?_map, hc, Option.map_some] at htxti
        rcases C62_in_a_file (hright _ hin o ho) with ⟨name, d, d', txt, k, hm, hdg, ⟨t, hm'⟩, hof, hop, hk⟩ | ⟨name, d, txt, k, hm, hdg, _⟩
        · obtain ⟨rfl, rfl⟩ : name = e.pe.inputFile ∧ txt = unifyEol text := by
            simp only [PSt.start, List.mem_cons, List.not_mem_nil, or_false] at hm
            rcases hm with hm | hm
            · cases hm; exact ⟨rfl, rfl⟩
            · cases hm; cases hk
          obtain rfl : d' = .path input := by
            simp only [PSt.start, List.mem_cons, List.not_mem_nil, or_false] at hm'
            rcases hm' with hm' | hm'
            · cases hm'; rfl
            · exact absurd (congrArg Prod.fst hm') hnull
          refine ⟨k, o.idx, ?_, ?_⟩
          · rw [← hof, ← hop]; exact hres2
          · rw [hk]; exact htxti.symm
        · have := start_names hn hm
          rw [hdg] at this; cases this

theorem located_of {w : World} (h : Sound w) {ls : List Leaf} (hls : ∀ l ∈ ls, InText w l) {l : Loc} (hl : Place ls l) :
    Located w l := by
  have hr : Registered w l.file := by
    rcases hl with hl | ⟨y, hy, hyl⟩
    · exact hls _ hl
    · exact hls _ hy l hyl
  refine ⟨_, loc_refs h _ l hr (rank_lt h hr), fun m => ?_⟩
  rw [loc_more h _ _ l hr (rank_lt h hr) (Nat.le_add_right _ m)]

/-- **C63**. Every place in the result of a translation, and in what the scopes hold then, has references, and
    `RESULT.loc` finds them; all declarations of macros and evaluated texts there have a place. -/
theorem C63_after_a_translation (e : EEnv) (hp : Honest e) (hn : Names e.pe) {n : Nat} {input : Option Str}
    {seen : List Node} {text : Str} (hseen : ∀ l ∈ leavesL seen, MadeOf [] l) {xs : List Node} {st : PSt} {v : Node} {s : ESt}
    (hpar : (P e.pe n).parse e.pe.inputFile (PSt.start e.pe input text) = .ok (xs, st))
    (hev : E e n (.text xs) { p := st, seen := seen } = .ok (v, s)) :
    Sound s.p.world ∧ Leaf.lost ∉ v.leaves ++ s.leaves ∧ ∀ l, Place (v.leaves ++ s.leaves) l → Located s.p.world l := by
  obtain ⟨h1, _, h2, h3⟩ := placed_run e hp hn hseen hpar hev
  have h4 : ∀ l ∈ v.leaves ++ s.leaves, InText s.p.world l := by
    intro l hl
    refine inText_of_placed (cfg := e.cfg) (repr := e.repr) ?_
    rcases List.mem_append.mp hl with hl | hl
    · exact h3 l hl
    · exact h2 l hl
  exact ⟨h1, fun hl => h4 _ hl, fun l hl => located_of h1 h4 hl⟩

/-- **C63**. The same wherever a text is rendered on the way: evaluated in any state with the tables in order and all
    places in texts that are there, all declarations placed, the items `ys` that are rendered are so, too. -/
theorem C63_while_evaluating (e : EEnv) (hp : Honest e) (hn : Names e.pe) {xs : List Node} {i : Indent} {s : ESt} {v : Node}
    {s' : ESt} (hw : Sound s.p.world) (hs : ∀ l, Place (s.leaves ++ (Node.t xs i).leaves) l → Registered s.p.world l.file)
    (hd : Leaf.lost ∉ s.leaves ++ (Node.t xs i).leaves) (h : Evaluates e (.t xs i) s v s') :
    Sound s'.p.world ∧ ∃ ys, Leaf.lost ∉ leavesL ys ∧ (v = .t ys i ∨
        v = if e.cfg.browse then .result (plainBrowse e.cfg (textExt e s') (.t ys i))
          else .pstr (plainStr e.cfg (textExt e s') (.t ys i))) ∧
      ∀ l, Place (leavesL ys) l → Located s'.p.world l := by
  have hin : ∀ l ∈ s.leaves ++ (Node.t xs i).leaves, InText s.p.world l := by
    intro l hl
    cases l with
    | src y => exact fun l' hl' => hs l' (.inr ⟨y, hl, hl'⟩)
    | «at» l => exact hs l (.inl hl)
    | ind i => trivial
    | res r => trivial
    | lost => exact hd hl
  obtain ⟨n, h⟩ := h
  cases n with
  | zero => cases h
  | succ n =>
    change (evalT (E e n) i 0 false xs >>= finishT e i) s = _ at h
    obtain ⟨ys, s1, h1, h2⟩ := em_bind_inv h
    obtain ⟨⟨k1, _⟩, _, k3⟩ := evalT_keep (inText_keeps hp hn) (E_keep (inText_keeps hp hn) n) xs i 0 false s ys s1
      ⟨hw, fun l hl => hin l (by simp [hl])⟩ (fun l hl => hin l (List.mem_append_right _ hl)) h1
    unfold finishT at h2
    cases h2
    refine ⟨k1, ys, fun hl => k3 _ hl, ?_, fun l hl => located_of k1 k3 hl⟩
    split
    · exact .inr rfl
    · exact .inl rfl

/-- The hypotheses are met: a macro, called and translated with browsing information. The `b` of the result comes from
    the text of the macro's expansion, which was declared at position 8 of the file (`-8`: not to be shifted). -/
def exMacro : EEnv := { pe := { inputFile := lit "f" }, cfg := { browse := true } }

theorem exMacro_honest : Honest exMacro := by
  refine ⟨?_, ?_, ?_, ?_⟩
  · intro _ _ _ h; cases h
  · intro _ _ _ _ _ _ h; cases h
  · intro _ _ _ _ h; cases h
  · intro _ _ _ _ h; cases h

example : Honest exMacro ∧ Names exMacro.pe ∧ (∀ l ∈ leavesL [], MadeOf [] l) ∧
    (match runAt exMacro (fun _ => []) 30 none [] (lit "($macro m (x) ab($x))c($m 1)") with
     | .ok run => match pp exMacro.cfg run.raw with
       | (true, .res r) => r.txt == lit "cab1" && resolve r 0 == some (lit "f", 21, 0) && resolve r 2 == some (lit "f", -8, 2)
       | _ => false
     | _ => false) = true := by
  refine ⟨exMacro_honest, ⟨by decide, fun _ _ => rfl⟩, ?_, ?_⟩
  · intro l hl; cases hl
  · decide +kernel

/-- The hypotheses of `C62_macro_free_text` are met: repeated empty lines are dropped, and what follows keeps its place. -/
def exFree : EEnv := { pe := { inputFile := lit "f" }, cfg := { browse := true, reduceEmptiness := true } }

example : Names exFree.pe ∧ exFree.pe.inputFile ≠ lit "<null>" ∧ MacroFree (unifyEol (lit "a\n\n\nb (c)\n")) ∧
    ('"' ∉ unifyEol (lit "a\n\n\nb (c)\n") ∧ '\'' ∉ unifyEol (lit "a\n\n\nb (c)\n")) ∧
    (match runAt exFree (fun _ => []) 30 none [] (lit "a\n\n\nb (c)\n") with
     | .ok run => match pp exFree.cfg run.raw with
       | (true, .res r) => r.txt == lit "a\n\nb (c)\n" && resolve r 3 == some (lit "f", 0, 4)
       | _ => false
     | _ => false) = true := by
  refine ⟨⟨by decide, fun _ _ => rfl⟩, by decide, ?_, by decide, ?_⟩
  · intro a b
    have h : ∀ c ∈ unifyEol (lit "a\n\n\nb (c)\n"), c ≠ '$' ∧ c ≠ '`' := by decide
    exact ⟨fun h' => (h '$' (by rw [h']; simp)).1 rfl, fun h' => (h '`' (by rw [h']; simp)).2 rfl⟩
  · decide +kernel

end Yupp
