import Verif.Props.Cpp
/-!
# C109 — The header that a program with `($h-begin)` and `($h-end)` gives
-/

namespace Yupp
open Spec

theorem join_nil : ∀ (ls : List Str), joinStr [] ls = ls.flatten
  | [] => rfl
  | [l] => by simp [joinStr]
  | l :: k :: ls => by
    rw [joinStr_cons _ _ (by simp), join_nil (k :: ls)]
    simp

theorem cut_margin : ∀ (bs : List Str) (o : Option Str), (o = some [] ∨ o = none) →
    (∀ b ∈ bs, b = [] ∨ ∃ c k, b = c :: k ∧ isBlank c = false) →
    (bs.map (· ++ ['\n'])).foldl cutStep o = some [] ∨ (bs.map (· ++ ['\n'])).foldl cutStep o = none
  | [], o, ho, _ => ho
  | b :: bs, o, ho, h => by
    rw [List.map_cons, List.foldl_cons]
    refine cut_margin bs _ ?_ (fun b hb => h b (List.mem_cons_of_mem _ hb))
    rcases h b (List.mem_cons_self ..) with rfl | ⟨c, k, rfl, hc⟩
    · rw [show cutStep o ([] ++ ['\n']) = o by simp [cutStep, emptyLine, spaceSplit, isBlank]]
      exact ho
    · unfold cutStep
      split
      · exact ho
      · split
        · exact .inr rfl
        · right
          simp [spaceSplit, hc]

theorem trimLines_margin : ∀ (b : Bool) (ls : List Str), trimLines 0 [] b ls = ls.flatten
  | _, [] => rfl
  | b, l :: ls => by
    rw [trimLines, trimLines_margin false ls, List.flatten_cons]
    congr 1
    unfold trimLine
    split
    · rfl
    · split <;> rfl

/-- A block of lines that begin at the margin stays as it is. -/
theorem reindent_margin (cfg : Config) {bs : List Str} (hb : ∀ b ∈ bs, ∀ c ∈ b, isLineBreak c = false)
    (hm : ∀ b ∈ bs, b = [] ∨ ∃ c k, b = c :: k ∧ isBlank c = false) (hx : ∃ b ∈ bs, b ≠ []) :
    reindent cfg [] (ofLines bs []) = ofLines bs [] := by
  have hk := splitKeep_ofLines bs [] hb (by simp)
  have hn := splitNL_ofLines bs [] hb (by simp)
  unfold reindent
  cases ht : cfg.trimAppIndent with
  | false =>
    split
    · simp [trimWithBrowse, ht]
    · simp [trim, ht]
  | true =>
    split
    · unfold trimWithBrowse
      split
      · rfl
      · have hc : cutLen (splitKeep (ofLines bs [])) = 0 := by
          unfold cutLen
          rw [hk]
          have := cut_margin bs (some []) (.inl rfl) hm
          simp only [lastLine, List.isEmpty_nil, if_true, List.append_nil]
          rcases this with h | h <;> rw [h] <;> rfl
        simp only [hc, trimLines_margin, splitKeep_flatten]
    · obtain ⟨m, h1, h2⟩ := C09_trim_exact cfg ht [] (ofLines bs [])
      rw [h2, hn]
      rw [hn] at h1
      have hblank : ∀ b ∈ bs, b ≠ [] → b.all blankChar = false := by
        intro b hb h0
        rcases hm b hb with rfl | ⟨c, k, rfl, hc⟩
        · exact absurd rfl h0
        · have : blankChar c = false := hc
          simp [this]
      obtain ⟨b, hbm, hb0⟩ := hx
      have hm0 : m = [] := by
        obtain ⟨⟨hbl, hpre⟩, -⟩ := h1 ⟨b, by simp [hbm], hblank b hbm hb0⟩
        cases m with
        | nil => rfl
        | cons d m =>
          obtain ⟨y, hy⟩ := hpre b (by simp [hbm]) (hblank b hbm hb0)
          rcases hm b hbm with rfl | ⟨c, k, rfl, hc⟩
          · exact absurd rfl hb0
          · simp only [List.cons_append, List.cons.injEq] at hy
            have := hbl d (by simp)
            rw [hy.1] at this
            rw [show isBlank c = true from this] at hc
            cases hc
      have hid : (bs ++ [[]]).map (fun l : Str => if l.all blankChar then [] else l.drop m.length) = bs ++ [[]] := by
        rw [hm0]
        conv => rhs; rw [← List.map_id (bs ++ [[]])]
        apply List.map_congr_left
        intro l hl
        by_cases h0 : l = []
        · simp [h0]
        · have : l ∈ bs := by simpa [h0] using hl
          simp [hblank l this h0]
      rw [hid, join_ofLines, join_nil, splitKeep_flatten]

/-- The end of a header is put in its place as it is. -/
theorem reindent_end (cfg : Config) {n : Str} (hn : ∀ c ∈ n, isLineBreak c = false) (ms : List Str) (hms : ∀ x ∈ ms, ∀ c ∈ x, isLineBreak c = false) :
    reindent cfg [] (lit "\n" ++ ms.flatMap (fun x => lit "#undef " ++ n ++ x ++ lit "\n") ++ lit "#endif\n") =
      lit "\n" ++ ms.flatMap (fun x => lit "#undef " ++ n ++ x ++ lit "\n") ++ lit "#endif\n" := by
  have e : lit "\n" ++ ms.flatMap (fun x => lit "#undef " ++ n ++ x ++ lit "\n") ++ lit "#endif\n" =
      ofLines ([] :: (ms.map (fun x => lit "#undef " ++ (n ++ x)) ++ [lit "#endif"])) [] := by
    have : ms.flatMap (fun x => lit "#undef " ++ n ++ x ++ lit "\n") = (ms.map (fun x => (lit "#undef " ++ (n ++ x)) ++ ['\n'])).flatten := by
      rw [List.flatMap_def]
      simp [lit]
    rw [this]
    simp [ofLines, lit, Function.comp_def]
  rw [e]
  apply reindent_margin
  · intro b hb c hc
    simp only [List.mem_cons, List.mem_append, List.mem_map, List.not_mem_nil, or_false] at hb
    rcases hb with rfl | ⟨x, hx, rfl⟩ | rfl
    · cases hc
    · rcases List.mem_append.1 hc with hc | hc
      · exact (by decide : ∀ c ∈ lit "#undef ", isLineBreak c = false) c hc
      · rcases List.mem_append.1 hc with hc | hc
        · exact hn c hc
        · exact hms x hx c hc
    · exact (by decide : ∀ c ∈ lit "#endif", isLineBreak c = false) c hc
  · intro b hb
    simp only [List.mem_cons, List.mem_append, List.mem_map, List.not_mem_nil, or_false] at hb
    rcases hb with rfl | ⟨x, hx, rfl⟩ | rfl
    · exact .inl rfl
    · exact .inr ⟨'#', lit "undef " ++ (n ++ x), rfl, rfl⟩
    · exact .inr ⟨'#', lit "endif", rfl, rfl⟩
  · exact ⟨lit "#endif", by simp, by decide⟩

theorem cpp_newline (cond : Str → Bool) (s : Cpp) (t : Str) : cpp cond s ('\n' :: t) = cpp cond s t := by
  have := cpp_line cond s (l := []) t (by simp)
  rwa [show cppLine cond s [] = s by simp [cppLine, dirName, lit]] at this

/-- **C109.** A text `($h-begin name)`, plain text of whole lines, `($h-end)`, with the macros of `lib/h.yu`, not in an indented
    line: the result is a header, to the C preprocessor, with the name in capital letters and the plain text in it. -/
theorem C109_program (e : EEnv) (x : BExt) (fn : Node) (text decl : Src) (c0 : Option Src) (args : List Node) (v : Node) (n : Str)
    (loc : Option Loc) (s s1 s2 : ESt) (hf : Evaluates e fn s (.mclosure text [(hParam, .bound)] decl c0) s1) (htext : text.txt = hBeginText)
    (ha : Args e args s1 [v] s2) (hv : Value v) (hvn : v ≠ .none) (hvt : ArgText v n) (hn : Yupp.IsName n) (hb : Bare e s2 n)
    (hup : Standard e x (lit "upper")) (hub : Unbound (lit "upper") s2)
    (hsk : (modeOf e.pe).remarks = .none) (hpy : e.pe.outputPython = false)
    (m text' decl' : Src) (c1 : Option Src) (l2 : Option Loc) (hm : Scopes.lookup s2.env m.txt = some (.mclosure text' [] decl' c1))
    (hmn : m.txt ≠ hName) (htext' : text'.txt = hEndText) (b : Src) (ind : Indent) (hind : ∀ c i, ind ≠ .str (c :: i)) (cut : Bool) :
    ∃ u T s', EachChar Capital n u ∧
      Generates e ind cut [.apply fn args [] loc, .plain b (.str []) false, .apply (.var false [] m) [] [] l2] s (.text T s') ∧
      SameToCpp T (wholeHeader u b.txt) := by
  obtain ⟨s3, u, henv, hu, h⟩ := C104_h_begin e x fn text decl c0 args v n loc s s1 s2 hf htext ha hv hvn hvt hn hb hup hub hsk hpy
  have hone := capital_oneLine hn hu
  obtain ⟨s4, -, -, h4⟩ := C103_h_end e (.var false [] m) text' decl' c1 [] l2 (push s3 [(hName, .pstr u)]) (push s3 [(hName, .pstr u)])
    (push s3 [(hName, .pstr u)]) (evaluates_iff.2 (var_value (by rw [lookup_push_none (by intro b hb; rw [List.mem_singleton] at hb; subst hb; exact fun h => hmn h.symm), henv, hm]) (by simp))) htext' (.nil _)
    (by intro hp; simp [modeOf, hp] at hsk) (by simp [hpy]) u
    (.value (v := .pstr u) (by rw [lookup_push]; rfl) (.pstr _) (by simp)) hone
  have h5 := h ind cut _ _ hind (.plain (w := b) (i := .str []) (c := false) (h4 (.str []) false [] _ .nil))
  have hend : blockAt e.cfg (indentBehind (.str []) (.str [])) (headerEnd u) = headerEnd u := by
    unfold headerEnd
    exact reindent_end e.cfg (fun d hd => Bool.eq_false_iff.2 (fun hx => hone.1 d hd (isLineBreak_iff.1 hx))) hMacros (by decide +kernel)
  refine ⟨u, _, _, hu, by simpa [Yield.after, Yield.leave] using h5, ?_⟩
  intro cond st r
  rw [show fragment e.cfg b.txt false = b.txt by simp [fragment]]
  have hend' : blockAt e.cfg (.str []) (headerEnd u) = headerEnd u := hend
  rw [hend']
  simp only [wholeHeader, List.cons_append, List.append_assoc]
  rw [cpp_newline]
  have := (C109_written cond st e.cfg true u (b.txt ++ (headerEnd u ++ r))).1
  simpa [List.append_assoc] using this

/-- **C109.** A text `($h-begin name)`, plain text of whole lines, `($h-end)`, with the macros of `lib/h-light.yu`, not in an indented
    line: the result is a header, to the C preprocessor, with the name in capital letters and the plain text in it. -/
theorem C109_program_light (e : EEnv) (x : BExt) (fn : Node) (text decl : Src) (c0 : Option Src) (args : List Node) (v : Node) (n : Str)
    (loc : Option Loc) (s s1 s2 : ESt) (hf : Evaluates e fn s (.mclosure text [(hParam, .bound)] decl c0) s1) (htext : text.txt = hLightText)
    (ha : Args e args s1 [v] s2) (hv : Value v) (hvn : v ≠ .none) (hvt : ArgText v n) (hn : Yupp.IsName n) (hb : Bare e s2 n)
    (hup : Standard e x (lit "upper")) (hub : Unbound (lit "upper") s2)
    (hsk : (modeOf e.pe).remarks = .none) (hpy : e.pe.outputPython = false)
    (m text' decl' : Src) (c1 : Option Src) (l2 : Option Loc) (hm : Scopes.lookup s2.env m.txt = some (.mclosure text' [] decl' c1))
    (hmn : m.txt ≠ hName) (htext' : text'.txt = hLightEndText) (b : Src) (ind : Indent) (hind : ∀ c i, ind ≠ .str (c :: i)) (cut : Bool) :
    ∃ u T s', EachChar Capital n u ∧
      Generates e ind cut [.apply fn args [] loc, .plain b (.str []) false, .apply (.var false [] m) [] [] l2] s (.text T s') ∧
      SameToCpp T (wholeLight u b.txt) := by
  obtain ⟨s3, u, henv, hu, h⟩ := C104_light_begin e x fn text decl c0 args v n loc s s1 s2 hf htext ha hv hvn hvt hn hb hup hub hsk hpy
  have hone := capital_oneLine hn hu
  obtain ⟨s4, -, -, h4⟩ := C104_light_end e (.var false [] m) text' decl' c1 [] l2 (push s3 [(hName, .pstr u)]) (push s3 [(hName, .pstr u)])
    (push s3 [(hName, .pstr u)]) (evaluates_iff.2 (var_value (by rw [lookup_push_none (by intro b hb; rw [List.mem_singleton] at hb; subst hb; exact fun h => hmn h.symm), henv, hm]) (by simp))) htext' (.nil _)
    (by intro hp; simp [modeOf, hp] at hsk) (by simp [hpy]) u
    (.value (v := .pstr u) (by rw [lookup_push]; rfl) (.pstr _) (by simp)) hone
  have h5 := h ind cut _ _ hind (.plain (w := b) (i := .str []) (c := false) (h4 (.str []) false [] _ .nil))
  have hend : blockAt e.cfg (indentBehind (.str []) (.str [])) (lightEnd u) = lightEnd u := by
    unfold lightEnd
    exact reindent_end e.cfg (fun d hd => Bool.eq_false_iff.2 (fun hx => hone.1 d hd (isLineBreak_iff.1 hx))) lightMacros (by decide +kernel)
  refine ⟨u, _, _, hu, by simpa [Yield.after, Yield.leave] using h5, ?_⟩
  intro cond st r
  rw [show fragment e.cfg b.txt false = b.txt by simp [fragment]]
  have hend' : blockAt e.cfg (.str []) (lightEnd u) = lightEnd u := hend
  rw [hend']
  simp only [wholeLight, List.cons_append, List.append_assoc]
  rw [cpp_newline]
  have := (C109_written cond st e.cfg true u (b.txt ++ (lightEnd u ++ r))).2
  simpa [List.append_assoc] using this

theorem capital_cchar {n u : Str} (hn : ∀ c ∈ n, CChar c) (h : EachChar Capital n u) : ∀ c ∈ u, CChar c := by
  induction h with
  | nil => simp
  | cons h _ ih =>
    intro c hc
    rcases List.mem_cons.1 hc with rfl | hc
    · rcases h with ⟨i, -, h2⟩ | ⟨-, h2⟩
      · have := List.mem_of_getElem? h2
        revert this
        exact (by unfold CChar; decide : ∀ c ∈ capitalLetters, CChar c) c
      · rw [h2]; exact hn _ (List.mem_cons_self ..)
    · exact ih (fun c hc => hn c (List.mem_cons_of_mem _ hc)) c hc

theorem same_again {T W : Str} (h : SameToCpp T W) (hw : ∃ y, W = y ++ ['\n']) (cond : Str → Bool) (k : Nat) (t : Str) : ∀ s : Cpp,
    cpp cond s ((List.replicate k T).flatten ++ t) = cpp cond s ((List.replicate k W).flatten ++ t) := by
  induction k with
  | zero => intro s; rfl
  | succ k ih =>
    intro s
    rw [List.replicate_succ, List.replicate_succ, List.flatten_cons, List.flatten_cons, List.append_assoc, List.append_assoc, h cond s,
      cpp_append cond s _ (.inr hw), cpp_append cond s _ (.inr hw)]
    exact ih _

/-- **C109.** So what such a program gives may be included any number of times. -/
theorem C109_output {n u b T : Str} (hn : ∀ c ∈ n, CChar c) (hu : EachChar Capital n u)
    (h : SameToCpp T (wholeHeader u b) ∨ SameToCpp T (wholeLight u b)) (cond : Str → Bool) (hb : HeaderBody cond (u ++ lit "_H") b) (s : Cpp)
    (ha : s.active = true) (k : Nat) (t : Str) :
    cpp cond s (T ++ ((List.replicate k T).flatten ++ t)) = cpp cond s (T ++ t) := by
  have huc := capital_cchar hn hu
  rcases h with h | h
  · have hw : ∃ y, wholeHeader u b = y ++ ['\n'] :=
      ⟨headerBegin u ++ (b ++ (lit "\n" ++ hMacros.flatMap (fun x => lit "#undef " ++ u ++ x ++ lit "\n") ++ lit "#endif")), by
        simp [wholeHeader, headerEnd, lit]⟩
    rw [h cond s, h cond s, cpp_append cond s _ (.inr hw), same_again h hw, ← cpp_append cond s _ (.inr hw)]
    exact (C109_again cond huc hb s ha k t).1
  · have hw : ∃ y, wholeLight u b = y ++ ['\n'] :=
      ⟨lightBegin u ++ (b ++ (lit "\n" ++ lightMacros.flatMap (fun x => lit "#undef " ++ u ++ x ++ lit "\n") ++ lit "#endif")), by
        simp [wholeLight, lightEnd, lit]⟩
    rw [h cond s, h cond s, cpp_append cond s _ (.inr hw), same_again h hw, ← cpp_append cond s _ (.inr hw)]
    exact (C109_again cond huc hb s ha k t).2

/-- The scope with the macros `h-begin` and `h-end`. -/
def hWholeScope : Scopes := [[(lit "h-begin", .mclosure ⟨hBeginText, none⟩ [(hParam, .bound)] ⟨[], none⟩ none),
  (lit "h-end", .mclosure ⟨hEndText, none⟩ [] ⟨[], none⟩ none)]]

attribute [local irreducible] hBeginText hEndText

/-- `($h-begin foo)`, a line, `($h-end)`: the header `FOO`, which may be included three times as well as once. -/
example (x : BExt) (p : PSt) (out : Option Str) (rept : Bool) (seen : List Node) : ∃ T s',
    Generates (upperEnv x) .none false
      [.apply (.var false [] ⟨lit "h-begin", none⟩) [.var false [] ⟨lit "foo", none⟩] [] none, .plain ⟨lit "int x;\n", none⟩ (.str []) false,
        .apply (.var false [] ⟨lit "h-end", none⟩) [] [] none]
      ⟨hWholeScope, p, out, rept, seen⟩ (.text T s') ∧
    ∀ cond t, cpp cond ⟨[], []⟩ (T ++ (T ++ (T ++ t))) = cpp cond ⟨[], []⟩ (T ++ t) := by
  have hbare : Bare (upperEnv x) ⟨hWholeScope, p, out, rept, seen⟩ (lit "foo") := ⟨by rfl, by rfl, by decide, by decide⟩
  obtain ⟨u, T, s', hu, h1, h2⟩ := C109_program (upperEnv x) x (.var false [] ⟨lit "h-begin", none⟩) ⟨hBeginText, none⟩ ⟨[], none⟩ none
    [.var false [] ⟨lit "foo", none⟩] (.atom ⟨lit "foo", none⟩) (lit "foo") none ⟨hWholeScope, p, out, rept, seen⟩ ⟨hWholeScope, p, out, rept, seen⟩
    ⟨hWholeScope, p, out, rept, seen⟩ (evaluates_iff.2 (var_value (by rfl) (by simp))) rfl
    (.one (bare_eval hbare) (by simp) (by simp) (.nil _)) (.atom _) (by simp) (.atom _) name_foo hbare
    ⟨fun _ => rfl, fun _ _ _ => rfl⟩ (by rfl) rfl rfl ⟨lit "h-end", none⟩ ⟨hEndText, none⟩ ⟨[], none⟩ none none (by rfl) (by decide) rfl
    ⟨lit "int x;\n", none⟩ .none (by simp) false
  refine ⟨T, s', h1, fun cond t => ?_⟩
  have := C109_output (by unfold CChar; decide : ∀ c ∈ lit "foo", CChar c) hu (.inl h2) cond (C109_plain cond _ [lit "int x;"] (by decide)) ⟨[], []⟩ rfl 2 t
  simpa [List.replicate_succ] using this

end Yupp
