import Verif.LogicalLine.TextEditLemmas
/-!
# Editing the text of a line (C61)
-/

namespace FLPR
open Spec Flex

/-! ## Inserting -/

/-- **C61** `insert_text_before` puts the text in front of the token, changes nothing else, and reads the line
again. -/
theorem C61_insert_before (st : State) (l : LLine) (i : Nat) (t : Tok) (new : Str)
    (hg : GoodPositions l.layout l.frags) (ht : l.frags[i]? = some t) :
    ∃ s lay', t.span = some s ∧ l.insertBefore st i new = LLine.initFromLayout st { l with layout := lay' } ∧
      Inserted l.layout lay' s.bl.toNat s.bc.toNat new ∧
      allText lay' = Spliced (allText l.layout) (startOff l.layout s) (startOff l.layout s) new := by
  obtain ⟨s, hs, hp⟩ := hg.1 t (List.mem_of_getElem? ht)
  obtain ⟨bl, bc, el, fb, fe, h1, h2, _, h4, _, _, h7, _⟩ := places_ends hp
  obtain ⟨lay', e1, e2, e3⟩ := insertText_ok new h4 h7
  have hi := (List.getElem?_eq_some_iff.mp ht).1
  refine ⟨s, lay', hs, ?_, ?_, ?_⟩
  · unfold LLine.insertBefore
    rw [if_neg (by omega), ht]
    dsimp only
    rw [hs]
    dsimp only
    rw [h1, h2, e1]
    rfl
  · rw [h1, h2]; exact e2
  · unfold startOff; rw [h1, h2]; exact e3

theorem insertText_end {l : LLine} {t : Tok} {s : Span} (new : Str) (hs : t.span = some s)
    (hp : Places l.layout s t.text) (he : RightEnd t) :
    ∃ lay', insertText l.layout s.el s.ec new = .ok lay' ∧ Inserted l.layout lay' s.el.toNat s.ec.toNat new ∧
      allText lay' = Spliced (allText l.layout) (stopOff l.layout s t.text) (stopOff l.layout s t.text) new := by
  obtain ⟨bl, bc, el, fb, fe, h1, h2, h3, h4, h5, _, _, h8⟩ := places_ends hp
  have hec := he.1 s hs
  have hz := he.2 s hs
  obtain ⟨c, hc⟩ := Int.eq_ofNat_of_zero_le hz
  have hcc : (endCol s t.text).toNat = c := by rw [← hec, hc]; rfl
  obtain ⟨lay', e1, e2, e3⟩ := insertText_ok (c := c) new h5 (by omega)
  refine ⟨lay', by rw [h3, hc]; exact e1, by rw [h3, hc]; exact e2, ?_⟩
  unfold stopOff
  rw [h3, hcc]
  exact e3

/-- **C61** `insert_text_after` puts the text behind the token, changes nothing else, and reads the line again. -/
theorem C61_insert_after (st : State) (l : LLine) (i : Nat) (t : Tok) (new : Str)
    (hg : GoodPositions l.layout l.frags) (ht : l.frags[i]? = some t) (he : RightEnd t) :
    ∃ s lay', t.span = some s ∧ l.insertAfter st i new = LLine.initFromLayout st { l with layout := lay' } ∧
      Inserted l.layout lay' s.el.toNat s.ec.toNat new ∧
      allText lay' = Spliced (allText l.layout) (stopOff l.layout s t.text) (stopOff l.layout s t.text) new := by
  obtain ⟨s, hs, hp⟩ := hg.1 t (List.mem_of_getElem? ht)
  obtain ⟨lay', e1, e2, e3⟩ := insertText_end new hs hp he
  have hi := (List.getElem?_eq_some_iff.mp ht).1
  refine ⟨s, lay', hs, ?_, e2, e3⟩
  unfold LLine.insertAfter
  rw [if_neg (by omega), ht]
  dsimp only
  rw [hs]
  dsimp only
  rw [e1]
  rfl

/-- **C61** `insert_text_before` the end of the tokens puts the text behind the last token. -/
theorem C61_insert_end (st : State) (l : LLine) (t : Tok) (new : Str)
    (hg : GoodPositions l.layout l.frags) (ht : l.frags.getLast? = some t) (he : RightEnd t) :
    ∃ s lay', t.span = some s ∧
      l.insertBefore st l.frags.length new = LLine.initFromLayout st { l with layout := lay' } ∧
      Inserted l.layout lay' s.el.toNat s.ec.toNat new ∧
      allText lay' = Spliced (allText l.layout) (stopOff l.layout s t.text) (stopOff l.layout s t.text) new := by
  obtain ⟨s, hs, hp⟩ := hg.1 t (List.mem_of_getLast? ht)
  obtain ⟨lay', e1, e2, e3⟩ := insertText_end new hs hp he
  refine ⟨s, lay', hs, ?_, e2, e3⟩
  unfold LLine.insertBefore
  rw [if_pos rfl, ht]
  dsimp only
  rw [hs]
  dsimp only
  rw [e1]
  rfl

/-! ## Replacing a range of tokens -/

/-- The ends of a range of tokens. -/
theorem range_ends {lay : List FileLine} {ts : List Tok} {i j : Nat} {t u : Tok} {s e : Span}
    (hg : GoodPositions lay ts) (hij : i < j) (ht : ts[i]? = some t) (hu : ts[j - 1]? = some u)
    (hs : t.span = some s) (he : u.span = some e) :
    Places lay s t.text ∧ Places lay e u.text ∧ s.bl ≤ e.el ∧
    startOff lay s ≤ stopOff lay e u.text := by
  obtain ⟨w, hw, hpt⟩ := hg.1 t (List.mem_of_getElem? ht)
  rw [hs] at hw; obtain rfl := Option.some.inj hw
  obtain ⟨w, hw, hpu⟩ := hg.1 u (List.mem_of_getElem? hu)
  rw [he] at hw; obtain rfl := Option.some.inj hw
  have hlt := places_ends hpt
  have hlu := places_ends hpu
  obtain ⟨a1, a2, a3, _, _, b1, b2, b3, _, _, b4, _⟩ := hlt
  obtain ⟨c1, c2, c3, _, _, d1, d2, d3, _, _, d4, _⟩ := hlu
  by_cases hj : i = j - 1
  · rw [← hj, ht] at hu
    obtain rfl := Option.some.inj hu
    rw [hs] at he; obtain rfl := Option.some.inj he
    exact ⟨hpt, hpu, by omega, (places_interval hpt).1⟩
  · have hp := List.pairwise_iff_getElem.mp hg.2 i (j - 1) (List.getElem?_eq_some_iff.mp ht).1
      (List.getElem?_eq_some_iff.mp hu).1 (by omega)
    rw [(List.getElem?_eq_some_iff.mp ht).2, (List.getElem?_eq_some_iff.mp hu).2] at hp
    have hpp := hp s e hs he
    refine ⟨hpt, hpu, ?_, ((places_interval hpt).1.trans (precedes_offs hpt hpu hpp)).trans (places_interval hpu).1⟩
    rcases hpp with h | ⟨h, _⟩ <;> omega

/-- The layout after a range has been replaced. -/
theorem replaceSubstr_layout (st : State) (l : LLine) (i j : Nat) (t u : Tok) (s e : Span) (new : Str)
    (hg : GoodPositions l.layout l.frags) (hij : i < j) (ht : l.frags[i]? = some t)
    (hu : l.frags[j - 1]? = some u) (hs : t.span = some s) (he : u.span = some e) (hr : RightEnd u)
    (hl : RangeLines l.layout s e) :
    ∃ (k n a b : Nat) (f g : FileLine), s.bl = k ∧ s.bc = a ∧ e.el = n ∧ e.ec = b ∧ endCol e u.text = b ∧
      l.layout[k]? = some f ∧ l.layout[n]? = some g ∧ a ≤ f.main_txt.length ∧ b ≤ g.main_txt.length ∧
      k ≤ n ∧ (k = n → a ≤ b) ∧ f.isFortran = true ∧ g.isFortran = true ∧
      (k = n → NotAlone l.layout s e → l.replaceSubstr st i j new = LLine.initFromLayout st
        { l with layout := l.layout.set k { f.makeUncontinued with
            main_txt := (if squeeze (f.main_txt.take a ++ f.main_txt.drop b) = [] then new
              else f.main_txt.take a ++ new ++ f.main_txt.drop b) } }) ∧
      (k = n → ¬ NotAlone l.layout s e → l.replaceSubstr st i j new = .error .exc) ∧
      (k < n → LastLine l.layout e → l.replaceSubstr st i j new = LLine.initFromLayout st
        { l with layout := l.layout.take k ++
          { (if squeeze (g.main_txt.drop b) = [] then f.makeUncontinued else f) with
            main_txt := f.main_txt.take a ++ new } ::
          (((l.layout.drop (k + 1)).take (n - k - 1)).map (fun f => if f.isFortran then f.makeBlank else f) ++
            (if squeeze (g.main_txt.drop b) = [] then g.makeBlank else { g with main_txt := g.main_txt.drop b }) ::
            l.layout.drop (n + 1)) }) := by
  obtain ⟨hpt, hpu, hle, hoff⟩ := range_ends hg hij ht hu hs he
  obtain ⟨k, a, _, f, _, a1, a2, _, a4, _, _, a7, _⟩ := places_ends hpt
  obtain ⟨_, _, n, _, g, _, _, b3, _, b5, _, _, b8⟩ := places_ends hpu
  have hec := hr.1 e he
  obtain ⟨b, hb⟩ := Int.eq_ofNat_of_zero_le (hr.2 e he)
  have hcc : (endCol e u.text).toNat = b := by rw [← hec, hb]; rfl
  rw [hcc] at b8
  have hff := hl.1 f (by rw [a1]; exact a4)
  have hgf := hl.2.1 g (by rw [b3]; exact b5)
  have hkn : k ≤ n := by omega
  have hab : k = n → a ≤ b := by
    intro h
    unfold startOff stopOff at hoff
    rw [a1, a2, b3, hcc, ← h] at hoff
    simp only [Int.toNat_natCast] at hoff
    omega
  have hstart : l.replaceSubstr st i j new = (do
      let lay ← eraseText l.layout (k : Int) (a : Int) (n : Int) (b : Int)
      let f ← lineAt lay (k : Int)
      let m ← strReplace f.main_txt (a : Int) 0 new
      LLine.initFromLayout st { l with layout := lay.set k { f with main_txt := m } }) := by
    unfold LLine.replaceSubstr
    rw [if_neg (by omega), ht, hu]
    dsimp only
    rw [hs, he]
    dsimp only
    rw [a1, a2, b3, hb]
    rfl
  refine ⟨k, n, a, b, f, g, a1, a2, b3, hb, by rw [← hec, hb], a4, b5, a7, b8, hkn, hab, hff, hgf, ?_, ?_, ?_⟩
  · intro h hna
    subst h
    rw [a4] at b5; obtain rfl := Option.some.inj b5
    obtain ⟨g, e1, e2, e3⟩ := replace_one a4 hff (hab rfl) b8
    rw [hstart, e1]
    simp only [Res.ok_bind]
    rw [lineAt_ok e2]
    simp only [Res.ok_bind]
    have hm : strReplace g.main_txt (a : Int) 0 new =
        .ok (if squeeze (f.main_txt.take a ++ f.main_txt.drop b) = [] then new
          else f.main_txt.take a ++ new ++ f.main_txt.drop b) := by
      by_cases hq : squeeze (f.main_txt.take a ++ f.main_txt.drop b) = []
      · have ha0 : a = 0 := by
          rcases hna with h | h
          · omega
          · exact absurd hq (by have := h f (by rw [a1]; exact a4); rw [a2, hb] at this; simpa using this)
        subst ha0
        have hmm : g.main_txt = [] := by rw [e3, if_pos hq]
        rw [hmm, strReplace_ok (by simp), if_pos hq]
        simp
      · rw [e3, if_neg hq, if_neg hq, strReplace_ok (by rw [List.length_append, List.length_take]; omega)]
        rw [Nat.add_zero, List.take_append_of_le_length (by rw [List.length_take]; omega),
          List.take_of_length_le (by rw [List.length_take]; omega),
          List.drop_left' (by rw [List.length_take]; omega)]
    rw [hm]
    simp only [Res.ok_bind]
    rw [List.set_set, e3]
  · intro h hna
    subst h
    rw [a4] at b5; obtain rfl := Option.some.inj b5
    obtain ⟨g, e1, e2, e3⟩ := replace_one a4 hff (hab rfl) b8
    rw [hstart, e1]
    simp only [Res.ok_bind]
    rw [lineAt_ok e2]
    simp only [Res.ok_bind]
    unfold NotAlone at hna
    rw [not_or] at hna
    obtain ⟨h0, h1⟩ := hna
    have hq : squeeze (f.main_txt.take a ++ f.main_txt.drop b) = [] := by
      by_contra hq
      apply h1
      intro f' hf'
      rw [a1] at hf'
      rw [show l.layout[(k : Int).toNat]? = l.layout[k]? from rfl, a4] at hf'
      obtain rfl := Option.some.inj hf'
      rw [a2, hb]
      simpa using hq
    have hmm : g.main_txt = [] := by rw [e3, if_pos hq]
    have : strReplace g.main_txt (a : Int) 0 new = .error .exc := by
      unfold strReplace
      rw [hmm, if_neg (by simp; omega)]
    rw [this]
    rfl
  · intro h hlast
    have hlst : squeeze (g.main_txt.drop b) = [] → NoComment g := by
      have := hlast g (by rw [b3]; exact b5)
      rw [hb] at this
      exact this
    have hmid : ∀ m ∈ (l.layout.drop (k + 1)).take (n - k - 1), m.isFortran = true → NoComment m := by
      intro m hm
      obtain ⟨q, hq, rfl⟩ := List.getElem_of_mem hm
      rw [List.length_take, List.length_drop] at hq
      have := hl.2.2 (k + 1 + q) (l.layout[k + 1 + q]'(by omega)) (by rw [a1]; simp; omega) (by rw [b3]; simp; omega)
        (List.getElem?_eq_getElem _)
      simpa using this.1
    rw [hstart, replace_many a4 b5 h hff hgf a7 b8 hmid hlst]
    simp only [Res.ok_bind]
    have hk := (List.getElem?_eq_some_iff.mp a4).1
    have hat : ∀ (x : FileLine) (xs : List FileLine), (l.layout.take k ++ x :: xs)[k]? = some x := by
      intro x xs
      rw [List.getElem?_append_right (by rw [List.length_take]; omega), List.length_take, Nat.min_eq_left (by omega)]
      simp
    rw [lineAt_ok (hat _ _)]
    simp only [Res.ok_bind]
    rw [strReplace_ok (by rw [List.length_take]; omega), Nat.add_zero]
    simp only [Res.ok_bind]
    have e1 : (f.main_txt.take a).take a = f.main_txt.take a :=
      List.take_of_length_le (by rw [List.length_take]; omega)
    have e2 : (f.main_txt.take a).drop a = [] := List.drop_eq_nil_of_le (by rw [List.length_take]; omega)
    rw [e1, e2, List.append_nil, List.set_append_right _ _ (by rw [List.length_take]; omega), List.length_take,
      Nat.min_eq_left (by omega), Nat.sub_self]
    rfl

theorem chained_append_one {xs ys : List FileLine} {f : FileLine} (hx : ∀ x ∈ xs, x.isFortran = true → x.bits.continued = true)
    (hf : f.isFortran = true) (hfc : f.bits.continued = false) (hy : ∀ y ∈ ys, y.isFortran = false) :
    Chained (xs ++ f :: ys) := by
  have : (xs ++ f :: ys).filter (·.isFortran) = xs.filter (·.isFortran) ++ [f] := by
    rw [List.filter_append, List.filter_cons_of_pos (by simpa using hf),
      (List.filter_eq_nil_iff (l := ys)).mpr (fun y hy' => by simp [hy y hy'])]
  constructor
  · rw [this, List.dropLast_concat]
    intro x hx'
    have := List.mem_filter.mp hx'
    exact hx x this.1 (by simpa using this.2)
  · rw [this, List.getLast?_concat]
    intro x hx'
    obtain rfl := Option.some.inj hx'
    exact hfc

/-- A chained layout, seen at its last Fortran line. -/
theorem chained_at {xs ys : List FileLine} {f : FileLine} (h : Chained (xs ++ f :: ys)) (hf : f.isFortran = true)
    (hy : ∀ y ∈ ys, y.isFortran = false) :
    (∀ x ∈ xs, x.isFortran = true → x.bits.continued = true) ∧ f.bits.continued = false := by
  have he : (xs ++ f :: ys).filter (·.isFortran) = xs.filter (·.isFortran) ++ [f] := by
    rw [List.filter_append, List.filter_cons_of_pos (by simpa using hf),
      (List.filter_eq_nil_iff (l := ys)).mpr (fun y hy' => by simp [hy y hy'])]
  unfold Chained at h
  rw [he, List.dropLast_concat, List.getLast?_concat] at h
  exact ⟨fun x hx hxf => h.1 x (List.mem_filter.mpr ⟨hx, by simpa using hxf⟩), h.2 f rfl⟩


theorem squeeze_splice {a new b : Str} (h : squeeze (a ++ b) = []) :
    squeeze (a ++ new ++ b) = squeeze new := by
  rw [squeeze_append] at h
  rw [squeeze_append, squeeze_append, (List.append_eq_nil_iff.mp h).1, (List.append_eq_nil_iff.mp h).2]
  simp

theorem squeeze_congr {a a' b b' c c' : Str} (h1 : squeeze a = squeeze a') (h2 : squeeze b = squeeze b')
    (h3 : squeeze c = squeeze c') : squeeze (a ++ b ++ c) = squeeze (a' ++ b' ++ c') := by
  simp only [squeeze_append, h1, h2, h3]

/-- **C61** `replace_stmt_substr` puts the new text in the place of everything from the first to the last token,
up to blanks; the lines in front of and behind the range are not touched, and neither are comment lines in between;
the label, the indentation and the comment of the line where the range starts stay. -/
theorem C61_replace_partial (st : State) (l : LLine) (i j : Nat) (t u : Tok) (s e : Span) (new : Str)
    (hg : GoodPositions l.layout l.frags) (hij : i < j) (ht : l.frags[i]? = some t)
    (hu : l.frags[j - 1]? = some u) (hs : t.span = some s) (he : u.span = some e) (hr : RightEnd u)
    (hl : RangeLines l.layout s e) (ha : s.bl = e.el → NotAlone l.layout s e)
    (hz : s.bl ≠ e.el → LastLine l.layout e) :
    ∃ lay', l.replaceSubstr st i j new = LLine.initFromLayout st { l with layout := lay' } ∧
      squeeze (allText lay') = squeeze (Spliced (allText l.layout) (startOff l.layout s)
        (stopOff l.layout e u.text) new) ∧
      lay'.length = l.layout.length ∧ lay'.take s.bl.toNat = l.layout.take s.bl.toNat ∧
      lay'.drop (e.el.toNat + 1) = l.layout.drop (e.el.toNat + 1) ∧
      (∀ f, l.layout[s.bl.toNat]? = some f → ∃ g, lay'[s.bl.toNat]? = some g ∧ SameAround f g) ∧
      (∀ k f, s.bl.toNat < k → k < e.el.toNat → l.layout[k]? = some f → f.isFortran = false →
        lay'[k]? = some f) ∧
      (Chained l.layout → (∀ f ∈ l.layout.drop (e.el.toNat + 1), f.isFortran = false) → Chained lay') := by
  obtain ⟨k, n, a, b, f, g, a1, a2, a3, a4, a5, a6, a7, a8, a9, a10, a11, a12, a13, a14, _, a16⟩ :=
    replaceSubstr_layout st l i j t u s e new hg hij ht hu hs he hr hl
  have hk := (List.getElem?_eq_some_iff.mp a6).1
  have hn := (List.getElem?_eq_some_iff.mp a7).1
  unfold startOff stopOff
  rw [a5, a1, a2, a3]
  simp only [Int.toNat_natCast]
  rcases Nat.lt_or_ge k n with hkn | hkn
  · refine ⟨_, a16 hkn (hz (by omega)), ?_, ?_, ?_, ?_, ?_, ?_, ?_⟩
    · have hnn : ∀ m ∈ (l.layout.drop (k + 1)).take (n - k - 1), m.isFortran = false → m.main_txt = [] := by
        intro m hm
        obtain ⟨q, hq, rfl⟩ := List.getElem_of_mem hm
        rw [List.length_take, List.length_drop] at hq
        have := hl.2.2 (k + 1 + q) (l.layout[k + 1 + q]'(by omega)) (by rw [a1]; simp; omega)
          (by rw [a3]; simp; omega) (List.getElem?_eq_getElem _)
        simpa using this.2
      rw [allText_append, show ∀ (x : FileLine) xs, allText (x :: xs) = x.main_txt ++ allText xs from fun _ _ => rfl,
        allText_append, allText_mid _ hnn,
        show ∀ (x : FileLine) xs, allText (x :: xs) = x.main_txt ++ allText xs from fun _ _ => rfl]
      unfold Spliced
      rw [allText_upto a6 a8, allText_from a7 a9]
      have hG : squeeze (if squeeze (g.main_txt.drop b) = [] then g.makeBlank
          else { g with main_txt := g.main_txt.drop b }).main_txt = squeeze (g.main_txt.drop b) := by
        by_cases hq : squeeze (g.main_txt.drop b) = []
        · rw [if_pos hq, hq]; rfl
        · rw [if_neg hq]
      simp only [squeeze_append, hG]
      simp [squeeze, List.append_assoc]
    · simp only [List.length_append, List.length_cons, List.length_map, List.length_take, List.length_drop]
      omega
    · rw [List.take_left' (by rw [List.length_take]; omega)]
    · have : (n + 1) = (l.layout.take k).length + (((l.layout.drop (k + 1)).take (n - k - 1)).length + 2) := by
        simp only [List.length_take, List.length_drop]; omega
      conv_lhs => rw [this]
      rw [List.drop_length_add_append]
      rw [List.drop_succ_cons, show ∀ x : List FileLine, x.length + 1 = (x.map (fun f => if f.isFortran then f.makeBlank else f)).length + 1 from by simp,
        List.drop_length_add_append]
      show l.layout.drop _ = _
      rw [← this]
    · intro f' hf'
      rw [a6] at hf'; obtain rfl := Option.some.inj hf'
      refine ⟨_, by
        rw [List.getElem?_append_right (by rw [List.length_take]; omega), List.length_take,
          Nat.min_eq_left (by omega), Nat.sub_self, List.getElem?_cons_zero], ?_⟩
      by_cases hq : squeeze (g.main_txt.drop b) = []
      · rw [if_pos hq]; exact makeUncontinued_around f _
      · rw [if_neg hq]; exact ⟨rfl, rfl, rfl, rfl⟩
    · intro m f' hm1 hm2 hf' hff
      rw [List.getElem?_append_right (by rw [List.length_take]; omega), List.length_take,
        Nat.min_eq_left (by omega)]
      obtain ⟨q, rfl⟩ := Nat.exists_eq_add_of_lt hm1
      rw [show k + q + 1 - k = q + 1 by omega, List.getElem?_cons_succ,
        List.getElem?_append_left (by simp only [List.length_map, List.length_take, List.length_drop]; omega),
        List.getElem?_map, List.getElem?_take_of_lt (by omega), List.getElem?_drop,
        show k + 1 + q = k + q + 1 by omega, hf']
      simp [hff]
    · intro hch hlast
      have hlay : l.layout = (l.layout.take k ++ f :: (l.layout.drop (k + 1)).take (n - k - 1)) ++
          g :: l.layout.drop (n + 1) := by
        conv_lhs => rw [← List.take_append_drop n l.layout, List.drop_eq_getElem_cons hn]
        congr 1
        · rw [show n = k + 1 + (n - k - 1) by omega, List.take_add, List.take_add_one, a6,
            show k + 1 + (n - k - 1) - k - 1 = n - k - 1 by omega]
          simp
        · rw [(List.getElem?_eq_some_iff.mp a7).2]
      rw [hlay] at hch
      obtain ⟨c1, c2⟩ := chained_at hch a13 hlast
      have hblank : ∀ m ∈ ((l.layout.drop (k + 1)).take (n - k - 1)).map
          (fun f => if f.isFortran then f.makeBlank else f), m.isFortran = false := by
        intro m hm
        have := List.filter_eq_nil_iff.mp (filter_fortran_mid ((l.layout.drop (k + 1)).take (n - k - 1))) m hm
        simpa using this
      by_cases hq : squeeze (g.main_txt.drop b) = []
      · rw [if_pos hq, if_pos hq]
        refine chained_append_one (fun x hx => c1 x (by simp [hx])) ?_ ?_ ?_
        · exact (isFortran_congr (makeUncontinued_around f _).2.2.2).trans a12
        · show f.makeUncontinued.bits.continued = false
          rw [makeUncontinued_bits]
        · intro y hy
          rcases List.mem_append.mp hy with hy | hy
          · exact hblank y hy
          · rcases List.mem_cons.mp hy with rfl | hy
            · exact makeBlank_notFortran g
            · exact hlast y hy
      · rw [if_neg hq, if_neg hq]
        have := chained_append_one (xs := l.layout.take k ++
          { f with main_txt := f.main_txt.take a ++ new } :: ((l.layout.drop (k + 1)).take (n - k - 1)).map
          (fun f => if f.isFortran then f.makeBlank else f)) (f := { g with main_txt := g.main_txt.drop b })
          (ys := l.layout.drop (n + 1)) ?_ a13 c2 hlast
        · simpa using this
        · intro x hx hxf
          rcases List.mem_append.mp hx with hx | hx
          · exact c1 x (by simp [hx]) hxf
          · rcases List.mem_cons.mp hx with rfl | hx
            · exact c1 f (by simp) a12
            · rw [hblank x hx] at hxf; cases hxf
  · obtain rfl : k = n := by omega
    rw [a6] at a7; obtain rfl := Option.some.inj a7
    refine ⟨_, a14 rfl (ha (by omega)), ?_, by simp,
      by rw [List.take_set_of_le (by omega)], by rw [List.drop_set, if_pos (by omega)], ?_, fun m f' h1 h2 => by omega, ?_⟩
    · rw [allText_set _ a6]
      unfold Spliced
      rw [allText_upto a6 a8, allText_from a6 a9]
      by_cases hq : squeeze (f.main_txt.take a ++ f.main_txt.drop b) = []
      · rw [if_pos hq]
        simp only [squeeze_append] at hq ⊢
        rw [(List.append_eq_nil_iff.mp hq).1, (List.append_eq_nil_iff.mp hq).2]
        simp
      · rw [if_neg hq]
        simp only [squeeze_append, List.append_assoc]
    · intro f' hf'
      rw [a6] at hf'; obtain rfl := Option.some.inj hf'
      exact ⟨_, List.getElem?_set_self hk, makeUncontinued_around f _⟩
    · intro hch hlast
      have hlay : l.layout = l.layout.take k ++ f :: l.layout.drop (k + 1) := by
        conv_lhs => rw [← List.take_append_drop k l.layout, List.drop_eq_getElem_cons hk,
          (List.getElem?_eq_some_iff.mp a6).2]
      rw [hlay] at hch
      obtain ⟨c1, c2⟩ := chained_at hch a12 hlast
      rw [List.set_eq_take_append_cons_drop, if_pos hk]
      refine chained_append_one c1 ?_ ?_ hlast
      · exact (isFortran_congr (makeUncontinued_around f _).2.2.2).trans a12
      · show f.makeUncontinued.bits.continued = false
        rw [makeUncontinued_bits]

/-- **C61** Text of one physical line is replaced exactly, if something but blanks is left of that line. -/
theorem C61_replace_exact (st : State) (l : LLine) (i j : Nat) (t u : Tok) (s e : Span) (new : Str)
    (hg : GoodPositions l.layout l.frags) (hij : i < j) (ht : l.frags[i]? = some t)
    (hu : l.frags[j - 1]? = some u) (hs : t.span = some s) (he : u.span = some e) (hr : RightEnd u)
    (hone : s.bl = e.el) (f : FileLine) (hf : l.layout[s.bl.toNat]? = some f) (hff : f.isFortran = true)
    (hleft : squeeze (f.main_txt.take s.bc.toNat ++ f.main_txt.drop e.ec.toNat) ≠ []) :
    ∃ lay', l.replaceSubstr st i j new = LLine.initFromLayout st { l with layout := lay' } ∧
      allText lay' = Spliced (allText l.layout) (startOff l.layout s) (stopOff l.layout e u.text) new ∧
      ∃ g, lay' = l.layout.set s.bl.toNat g ∧ SameAround f g := by
  have hl : RangeLines l.layout s e := by
    refine ⟨fun f' h => ?_, fun f' h => ?_, fun k f' h1 h2 => ?_⟩
    · rw [hf] at h; obtain rfl := Option.some.inj h; exact hff
    · rw [← hone, hf] at h; obtain rfl := Option.some.inj h; exact hff
    · rw [← hone] at h2; omega
  obtain ⟨k, n, a, b, f', g, a1, a2, a3, a4, a5, a6, a7, a8, a9, a10, a11, a12, a13, a14, _, _⟩ :=
    replaceSubstr_layout st l i j t u s e new hg hij ht hu hs he hr hl
  rw [a1, show (k : Int).toNat = k from rfl, a6] at hf
  obtain rfl := Option.some.inj hf
  obtain rfl : k = n := by omega
  rw [a6] at a7; obtain rfl := Option.some.inj a7
  have hq : squeeze (f'.main_txt.take a ++ f'.main_txt.drop b) ≠ [] := by
    rw [a2, a4] at hleft; simpa using hleft
  refine ⟨_, a14 rfl (Or.inr (fun f'' h => ?_)), ?_, ⟨_, by rw [a1]; rfl, makeUncontinued_around f' _⟩⟩
  · rw [a1, show (k : Int).toNat = k from rfl, a6] at h
    obtain rfl := Option.some.inj h
    exact hleft
  · unfold startOff stopOff
    rw [a5, a1, a2, a3]
    simp only [Int.toNat_natCast]
    exact allText_splice _ a6 a8 a9 (by rw [if_neg hq])

/-- **C61** A range that is all there is on its line, except for blanks in front of it, cannot be replaced: the
text is cleared first, and the column is then out of range. -/
theorem C61_violation_alone (st : State) (l : LLine) (i j : Nat) (t u : Tok) (s e : Span) (new : Str)
    (hg : GoodPositions l.layout l.frags) (hij : i < j) (ht : l.frags[i]? = some t)
    (hu : l.frags[j - 1]? = some u) (hs : t.span = some s) (he : u.span = some e) (hr : RightEnd u)
    (hl : RangeLines l.layout s e) (hone : s.bl = e.el) (ha : ¬ NotAlone l.layout s e) :
    l.replaceSubstr st i j new = .error .exc := by
  obtain ⟨k, n, a, b, f', g, a1, a2, a3, a4, a5, a6, a7, a8, a9, a10, a11, a12, a13, _, a15, _⟩ :=
    replaceSubstr_layout st l i j t u s e new hg hij ht hu hs he hr hl
  exact a15 (by omega) ha

/-! ## Continuation -/

theorem filter_set {α : Type} (p : α → Bool) (l : List α) (k : Nat) (x y : α) (h : l[k]? = some x)
    (hp : p y = p x) : (l.set k y).map p = l.map p := by
  rw [List.map_set, hp]
  refine List.ext_getElem? fun i => ?_
  by_cases hi : k = i
  · subst hi
    have := (List.getElem?_eq_some_iff.mp h).1
    rw [List.getElem?_set_self (by simpa using this), List.getElem?_map, h]
    rfl
  · rw [List.getElem?_set_ne hi]

/-- The bits decide. -/
theorem chained_bits {lay lay' : List FileLine} (h : lay'.map (·.bits) = lay.map (·.bits)) (hc : Chained lay) :
    Chained lay' := by
  have key : ∀ xs : List FileLine, (xs.filter (·.isFortran)).map (·.bits) =
      (xs.map (·.bits)).filter (fun b => ({ bits := b } : FileLine).isFortran) := by
    intro xs
    rw [List.filter_map]
    rfl
  have h2 : (lay'.filter (·.isFortran)).map (·.bits) = (lay.filter (·.isFortran)).map (·.bits) := by
    rw [key, key, h]
  constructor
  · intro f hf
    have : f.bits ∈ ((lay.filter (·.isFortran)).map (·.bits)).dropLast := by
      rw [← h2, ← List.map_dropLast]
      exact List.mem_map_of_mem hf
    rw [← List.map_dropLast] at this
    obtain ⟨g, hg, hgf⟩ := List.mem_map.mp this
    rw [← hgf]
    exact hc.1 g hg
  · intro f hf
    have : ((lay.filter (·.isFortran)).map (·.bits)).getLast? = some f.bits := by
      rw [← h2, List.getLast?_map, hf]; rfl
    rw [List.getLast?_map] at this
    cases hg : (lay.filter (·.isFortran)).getLast? with
    | none => rw [hg] at this; cases this
    | some g =>
      rw [hg] at this
      rw [← Option.some.inj this]
      exact hc.2 g hg

/-- **C61** Inserting text does not touch the continuation of the lines. -/
theorem C61_insert_chain (lay lay' : List FileLine) (k c : Nat) (new : Str)
    (h : Inserted lay lay' k c new) (hc : Chained lay) :
    Chained lay' := by
  obtain ⟨f, hf, _, rfl⟩ := h
  refine chained_bits ?_ hc
  rw [List.map_set]
  refine List.ext_getElem? fun i => ?_
  by_cases hi : k = i
  · subst hi
    have := (List.getElem?_eq_some_iff.mp hf).1
    rw [List.getElem?_set_self (by simpa using this), List.getElem?_map, hf]
    rfl
  · rw [List.getElem?_set_ne hi]

end FLPR
