import Verif.Case.Chars
/-!
# Case of letters: the analysis of a physical line
-/

namespace FLPR
open Spec SP

/-! ### The text predicates -/

theorem strToLower_case : ∀ {a b : Str}, SameLetters a b → strToLower b = strToLower a
  | [], b, h => by rw [sl_nil.mp h]
  | c :: a, b, h => by
    obtain ⟨d, b', rfl, h1, h2⟩ := sl_cons.mp h
    rw [strToLower, strToLower, cToLower_case h1, strToLower_case h2]

theorem letterI {c : Char} : (c = 'i' ∨ c = 'I') ↔ lowChar c = 'i' := by
  constructor
  · rintro (rfl | rfl) <;> decide
  · intro h
    by_cases hc : 'A' ≤ c ∧ c ≤ 'Z'
    · right
      have h1 := upChar_low c
      rw [h] at h1
      have h2 : upChar 'i' = 'I' := by decide
      have h3 : upChar c = c := by
        unfold upChar
        rw [if_neg]
        rintro ⟨h3, _⟩
        have : 97 ≤ c.toNat := h3
        have := (lowChar_upper hc).2.2.2
        omega
      rw [← h3, ← h1, h2]
    · left
      rw [← lowChar_id hc, h]

theorem quote_noLetter : NoLetter '\'' := .inl (by decide)
theorem dquote_noLetter : NoLetter '"' := .inl (by decide)
theorem amp_noLetter : NoLetter '&' := .inl (by decide)
theorem bang_noLetter : NoLetter '!' := .inl (by decide)
theorem nul_noLetter : NoLetter NUL := .inl (by decide)
theorem blank_noLetter : NoLetter ' ' := .inl (by decide)
theorem tab_noLetter : NoLetter '\t' := .inl (by decide)

theorem isIncludeLine_case {a b : Str} (h : SameLetters a b) (n : Nat) : isIncludeLine b n = isIncludeLine a n := by
  unfold isIncludeLine
  have h1 : (b.getD n NUL ≠ 'i' ∧ b.getD n NUL ≠ 'I') ↔ (a.getD n NUL ≠ 'i' ∧ a.getD n NUL ≠ 'I') := by
    rw [← not_or, ← not_or, letterI, letterI, sl_getD h n]
  rw [sl_length h, strToLower_case (sl_take (sl_drop h n) 7)]
  simp only [h1]
  have h2 := dropWhile_case (p := fun c => c == ' ') (fun c c' hc => charEq_beq hc blank_noLetter) (sl_drop h (n + 7))
  generalize (a.drop (n + 7)).dropWhile (fun c => c == ' ') = x at h2 ⊢
  generalize (b.drop (n + 7)).dropWhile (fun c => c == ' ') = y at h2 ⊢
  cases x with
  | nil => rw [sl_nil.mp h2]
  | cons q x =>
    obtain ⟨q', y', rfl, hq, _⟩ := sl_cons.mp h2
    simp only [charEq_beq hq quote_noLetter, charEq_beq hq dquote_noLetter]

/-- No mark of a directive. -/
def NoMark (s : Str) : Prop := ¬ "#flpr".toList <:+: s.map lowChar

theorem noMark_case {a b : Str} (h : SameLetters a b) (ha : NoMark a) : NoMark b := by
  unfold NoMark at ha ⊢
  unfold SameLetters at h
  rwa [h]

theorem getD_of_lt {s : Str} {i : Nat} (h : i < s.length) : s[i]? = some (s.getD i NUL) := by
  rw [List.getD_eq_getElem?_getD, List.getElem?_eq_getElem h]; rfl

theorem directive_infix {s : Str} {p : Nat} (h : isFlprDirective s p = true) : "#flpr".toList <:+: s := by
  unfold isFlprDirective at h
  simp only [Bool.and_eq_true, decide_eq_true_eq, beq_iff_eq] at h
  obtain ⟨⟨⟨⟨⟨h0, h1⟩, h2⟩, h3⟩, h4⟩, h5⟩ := h
  have e : (s.drop (p + 1)).take 5 = "#flpr".toList := by
    apply List.ext_getElem?
    intro i
    have hl : "#flpr".toList = ['#', 'f', 'l', 'p', 'r'] := by decide
    rw [hl, List.getElem?_take]
    have g : ∀ j, j < s.length → s[j]? = some (s.getD j NUL) := fun j => getD_of_lt
    match i with
    | 0 => rw [if_pos (by omega), List.getElem?_drop, g _ (by omega)]; simp only [Nat.add_zero, h1]; rfl
    | 1 => rw [if_pos (by omega), List.getElem?_drop, g _ (by omega)]; simp only [Nat.add_assoc, Nat.reduceAdd, h2]; rfl
    | 2 => rw [if_pos (by omega), List.getElem?_drop, g _ (by omega)]; simp only [Nat.add_assoc, Nat.reduceAdd, h3]; rfl
    | 3 => rw [if_pos (by omega), List.getElem?_drop, g _ (by omega)]; simp only [Nat.add_assoc, Nat.reduceAdd, h4]; rfl
    | 4 => rw [if_pos (by omega), List.getElem?_drop, g _ (by omega)]; simp only [Nat.add_assoc, Nat.reduceAdd, h5]; rfl
    | n + 5 => rw [if_neg (by omega)]; simp
  rw [← e]
  exact (List.take_prefix _ _).isInfix.trans (List.drop_suffix _ _).isInfix

theorem noMark_directive {s : Str} (h : NoMark s) (p : Nat) : isFlprDirective s p = false := by
  rw [Bool.eq_false_iff]
  intro hd
  refine h ?_
  obtain ⟨x, y, e⟩ := directive_infix hd
  refine ⟨x.map lowChar, y.map lowChar, ?_⟩
  rw [← e, List.map_append, List.map_append]
  congr 2

theorem noMark_literal {s : Str} (h : NoMark s) (p : Nat) : isFlprLiteral s p = .ok false := by
  unfold isFlprLiteral
  rw [noMark_directive h]
  rfl

/-! ### The trailing text -/

theorem restIsSpace_case : ∀ {a b : Str}, SameLetters a b → restIsSpace b = restIsSpace a
  | [], b, h => by rw [sl_nil.mp h]
  | c :: a, b, h => by
    obtain ⟨d, b', rfl, h1, h2⟩ := sl_cons.mp h
    rw [restIsSpace, restIsSpace, cIsSpace_case h1, restIsSpace_case h2]

/-- A delimiter is no letter. -/
theorem delim_noLetter {d : Char} (h : validDelim d = true) : NoLetter d := by
  unfold validDelim at h
  simp only [Bool.or_eq_true, beq_iff_eq] at h
  rcases h with (rfl | rfl) | rfl
  · exact nul_noLetter
  · exact dquote_noLetter
  · exact quote_noLetter

theorem findTrailingFreeGo_case : ∀ (ctx : Char), validDelim ctx = true → ∀ (i : Nat) {a b : Str}, SameLetters a b →
    findTrailingFreeGo ctx i b = findTrailingFreeGo ctx i a
  | ctx, hv, i, [], b, h => by rw [sl_nil.mp h]
  | ctx, hv, i, c :: a, b, h => by
    obtain ⟨d, b', rfl, h1, h2⟩ := sl_cons.mp h
    rw [findTrailingFreeGo, findTrailingFreeGo]
    have ih := fun ctx hv => findTrailingFreeGo_case ctx hv (i + 1) h2
    simp only [charEq_iff h1 quote_noLetter, charEq_iff h1 dquote_noLetter, charEq_iff h1 bang_noLetter,
      charEq_iff h1 amp_noLetter, charEq_iff h1 (delim_noLetter hv), restIsSpace_case h2, ih ctx hv, ih NUL (by decide)]
    split
    · split
      · rename_i hc
        have hd : d = c := by
          rcases hc with hc | hc
          · rw [hc]; exact (charEq_iff h1 quote_noLetter).mpr hc
          · rw [hc]; exact (charEq_iff h1 dquote_noLetter).mpr hc
        rw [hd]
        refine ih c ?_
        rcases hc with rfl | rfl <;> decide
      · rfl
    · rfl

theorem findTrailingFree_case {a b : Str} (h : SameLetters a b) (s : Nat) (d : Char) :
    findTrailingFree b s d = findTrailingFree a s d := by
  unfold findTrailingFree
  split
  · exact findTrailingFreeGo_case d (by assumption) s (sl_drop h s)
  · rfl

theorem findTrailingFixedGo_case : ∀ (ctx : Char), validDelim ctx = true → ∀ (i : Nat) {a b : Str}, SameLetters a b →
    findTrailingFixedGo ctx i b = findTrailingFixedGo ctx i a
  | ctx, hv, i, [], b, h => by rw [sl_nil.mp h]
  | ctx, hv, i, c :: a, b, h => by
    obtain ⟨d, b', rfl, h1, h2⟩ := sl_cons.mp h
    rw [findTrailingFixedGo, findTrailingFixedGo]
    have ih := fun ctx hv => findTrailingFixedGo_case ctx hv (i + 1) h2
    simp only [charEq_iff h1 quote_noLetter, charEq_iff h1 dquote_noLetter, charEq_iff h1 bang_noLetter,
      charEq_iff h1 (delim_noLetter hv), ih ctx hv, ih NUL (by decide)]
    split
    · split
      · rename_i hc
        have hd : d = c := by
          rcases hc with hc | hc
          · rw [hc]; exact (charEq_iff h1 quote_noLetter).mpr hc
          · rw [hc]; exact (charEq_iff h1 dquote_noLetter).mpr hc
        rw [hd]
        refine ih c ?_
        rcases hc with rfl | rfl <;> decide
      · rfl
    · rfl

theorem findTrailingFixed_case {a b : Str} (h : SameLetters a b) (s : Nat) (lc : Int) (d : Char) :
    findTrailingFixed b s lc d = findTrailingFixed a s lc d := by
  unfold findTrailingFixed
  split
  · simp only [sl_length h, findTrailingFixedGo_case d (by assumption) s (sl_drop (sl_take h _) s)]
  · rfl

/-! ### The parts of a line -/

theorem scanDigits_case : ∀ (k i : Nat) {a b : Str}, SameLetters a b → scanDigits k i b = scanDigits k i a
  | 0, i, a, b, h => by rw [scanDigits, scanDigits]
  | k + 1, i, [], b, h => by rw [sl_nil.mp h]
  | k + 1, i, c :: a, b, h => by
    obtain ⟨d, b', rfl, h1, h2⟩ := sl_cons.mp h
    rw [scanDigits, scanDigits, cIsDigit_case h1, scanDigits_case k (i + 1) h2]

theorem scanSpaces_case : ∀ (i : Nat) {a b : Str}, SameLetters a b → scanSpaces i b = scanSpaces i a
  | i, [], b, h => by rw [sl_nil.mp h]
  | i, c :: a, b, h => by
    obtain ⟨d, b', rfl, h1, h2⟩ := sl_cons.mp h
    rw [scanSpaces, scanSpaces, cIsSpace_case h1, scanSpaces_case (i + 1) h2]

theorem trimMain_case {a b : Str} (h : SameLetters a b) (d : Char) :
    SameLetters (trimMain a d).1 (trimMain b d).1 ∧ SameLetters (trimMain a d).2 (trimMain b d).2 := by
  unfold trimMain
  simp only [lastNotOf_case blanks_noLetter h, sl_length h]
  split
  · split
    · exact ⟨sl_take h _, sl_drop h _⟩
    · exact ⟨h, sl_refl _⟩
  · exact ⟨h, sl_refl _⟩

theorem mkLeft_case (ln : Int) (bs : Bits) {a b : Str} (h : SameLetters a b) : CaseLine (mkLeft ln bs a) (mkLeft ln bs b) :=
  ⟨rfl, rfl, rfl, h, sl_refl _, sl_refl _, sl_refl _, sl_refl _⟩

theorem caseLine_refl (f : FileLine) : CaseLine f f := ⟨rfl, rfl, rfl, rfl, rfl, rfl, rfl, rfl⟩

theorem mkFull_case (ln : Int) (bs : Bits) {lt ls mt rs rt lt' ls' mt' rs' rt' : Str} (d : Char) (h1 : SameLetters lt lt')
    (h2 : SameLetters ls ls') (h3 : SameLetters mt mt') (h4 : SameLetters rs rs') (h5 : SameLetters rt rt') :
    BothWays CaseLine (mkFull ln bs lt ls mt rs rt d) (mkFull ln bs lt' ls' mt' rs' rt' d) := by
  unfold mkFull
  exact BW.ite (fun _ => BW.ok ⟨rfl, rfl, rfl, h1, h2, h3, h4, h5⟩) (fun _ => BW.err _)

theorem freeLeft_case {a b : Str} (h : SameLetters a b) (pc : Bool) (ri : Nat) (c : Char) :
    BothWays (fun x y => SameLetters x.1 y.1 ∧ y.2 = x.2) (freeLeft a pc ri c) (freeLeft b pc ri c) := by
  unfold freeLeft
  refine BW.bind (BW.same _) (fun d d' hd => ?_)
  cases hd
  refine BW.ite (fun _ => ?_) (fun _ => BW.ite (fun _ => BW.ok ⟨sl_take h _, rfl⟩) (fun _ => BW.ok ⟨sl_refl _, rfl⟩))
  rw [scanDigits_case 6 ri (sl_drop h ri)]
  refine BW.bind (BW.same _) (fun r r' hr => ?_)
  cases hr
  exact BW.ok ⟨sl_take h _, rfl⟩

theorem freeSkip_case {a b lt lt' : Str} (h : SameLetters a b) (hl : SameLetters lt lt') (bs : Bits) (r : Nat) :
    freeSkip b lt' bs r = freeSkip a lt bs r := by
  unfold freeSkip
  simp only [ne_eq, sl_isEmpty hl, scanSpaces_case r (sl_drop h r)]

theorem analyzeFreeBody_case (ln : Int) {a b : Str} (h : SameLetters a b) (pd : Char) (pc : Bool) (ri : Nat) (c : Char) :
    BothWays CaseLine (analyzeFreeBody ln a pd pc ri c) (analyzeFreeBody ln b pd pc ri c) := by
  unfold analyzeFreeBody
  refine BW.bind (freeLeft_case h pc ri c) ?_
  rintro ⟨lt, bs, r1, ib⟩ ⟨lt', x⟩ ⟨hl, hx⟩
  cases hx
  dsimp only at hl ⊢
  rw [freeSkip_case h hl]
  refine BW.bind (BW.same _) (fun r r' hr => ?_)
  cases hr
  rw [findTrailingFree_case h]
  refine BW.bind (BW.same _) ?_
  rintro ⟨tb, od⟩ y hy
  cases hy
  have hls : SameLetters (if r > ib then (a.drop ib).take (r - ib) else []) (if r > ib then (b.drop ib).take (r - ib) else []) := by
    split
    · exact sl_take (sl_drop h _) _
    · exact sl_refl _
  cases tb with
  | none =>
    dsimp only
    refine BW.bind (substrFrom_case h r) (fun m m' hm => ?_)
    exact mkFull_case _ _ _ hl hls (trimMain_case hm od).1 (trimMain_case hm od).2 (sl_refl _)
  | some t =>
    dsimp only
    refine BW.bind (substr_case h r _) (fun m m' hm => ?_)
    refine BW.bind (substrFrom_case h t) (fun q q' hq => ?_)
    have hb : (if q'.getD 0 NUL = '&' then { bs with continued := true } else bs) =
        (if q.getD 0 NUL = '&' then { bs with continued := true } else bs : Bits) := by
      simp only [charEq_iff (sl_getD hq 0) amp_noLetter]
    rw [hb]
    exact mkFull_case _ _ _ hl hls (trimMain_case hm od).1 (trimMain_case hm od).2 hq

theorem analyzeFree_noMark (ln : Int) {a b : Str} (h : SameLetters a b) (hm : NoMark a) (pd : Char) (pc lit : Bool) :
    BothWays (fun x y => CaseLine x.1 y.1 ∧ y.2 = x.2) (analyzeFree ln a pd pc lit) (analyzeFree ln b pd pc lit) := by
  have hmb := noMark_case h hm
  unfold analyzeFree
  rw [findFirstNotOf_case blanksR_noLetter h]
  simp only [noMark_literal hm, noMark_literal hmb, noMark_directive hm, noMark_directive hmb]
  refine BW.ite (fun _ => ?_) (fun _ => ?_)
  · cases findFirstNotOf [' ', '\t', '\r'] a with
    | none => exact BW.ok ⟨mkLeft_case _ _ h, rfl⟩
    | some ri =>
      simp only [charEq_iff (sl_getD h ri) bang_noLetter]
      exact BW.ite (fun _ => BW.ok ⟨mkLeft_case _ _ h, rfl⟩) (fun _ => BW.ok ⟨mkLeft_case _ _ h, rfl⟩)
  · cases findFirstNotOf [' ', '\t', '\r'] a with
    | none => exact BW.ok ⟨mkLeft_case _ _ h, rfl⟩
    | some ri =>
      simp only [cToUpper_case (sl_getD h ri), isIncludeLine_case h]
      refine BW.bind (BW.same _) (fun c c' hc => ?_)
      cases hc
      refine BW.ite (fun _ => BW.ok ⟨mkLeft_case _ _ h, rfl⟩) (fun _ => ?_)
      refine BW.bind (BW.same _) (fun i i' hi => ?_)
      cases hi
      refine BW.ite (fun _ => BW.ok ⟨mkLeft_case _ _ h, rfl⟩) (fun _ => ?_)
      refine BW.ite (fun _ => BW.ok ⟨mkLeft_case _ _ h, rfl⟩) (fun _ => ?_)
      exact BW.bind (analyzeFreeBody_case ln h pd pc ri c) (fun f f' hf => BW.ok ⟨hf, rfl⟩)

theorem analyzeFree_case (ln : Int) {a b : Str} (h : Respelled a b) (pd : Char) (pc lit : Bool) :
    BothWays (fun x y => CaseLine x.1 y.1 ∧ y.2 = x.2) (analyzeFree ln a pd pc lit) (analyzeFree ln b pd pc lit) := by
  rcases h with rfl | ⟨h, hm⟩
  · exact BW.mono (BW.same _) (fun x y e => by cases e; exact ⟨caseLine_refl _, rfl⟩)
  · exact analyzeFree_noMark ln h hm pd pc lit

/-! ### Fixed format -/

theorem expandTabs_case {a b : Str} (h : SameLetters a b) : SameLetters (expandTabs a) (expandTabs b) := by
  unfold expandTabs
  rw [findChar_case tab_noLetter h]
  cases findChar '\t' a with
  | none => exact h
  | some tb =>
    dsimp only
    have hr := sl_length (takeWhile_case (p := fun c => c == '\t') (fun c c' hc => charEq_beq hc tab_noLetter) (sl_drop h tb))
    split
    · rw [hr]
      exact sl_append (sl_append (sl_append (sl_take h _) (sl_refl _)) (sl_refl _)) (sl_drop h _)
    · exact h

theorem infix_blank {w x y : Str} (hw : ' ' ∉ w) (h : w <:+: x ++ ' ' :: y) : w <:+: x ∨ w <:+: y := by
  obtain ⟨s, t, e⟩ := h
  rw [List.append_assoc, List.append_eq_append_iff] at e
  rcases e with ⟨u, hx, hu⟩ | ⟨u, hs, hu⟩
  · rw [List.append_eq_append_iff] at hu
    rcases hu with ⟨v, hv, _⟩ | ⟨v, hv, he⟩
    · exact .inl ⟨s, v, by rw [hx, hv, List.append_assoc]⟩
    · cases v with
      | nil => exact .inl ⟨s, [], by rw [hx, hv, List.append_nil, List.append_nil]⟩
      | cons c v =>
        rw [List.cons_append, List.cons.injEq] at he
        exact absurd (by rw [hv, ← he.1]; simp) hw
  · cases u with
    | nil =>
      cases w with
      | nil => exact .inl ⟨x, [], by simp⟩
      | cons c w =>
        rw [List.nil_append, List.cons_append, List.cons.injEq] at hu
        exact absurd (by rw [← hu.1]; simp) hw
    | cons c u =>
      rw [List.cons_append, List.cons.injEq] at hu
      exact .inr ⟨u, t, by rw [hu.2, List.append_assoc]⟩

theorem infix_blanks {w : Str} (hw : ' ' ∉ w) : ∀ (n : Nat) {x y : Str}, w <:+: x ++ (blanks (n + 1) ++ y) → w <:+: x ∨ w <:+: y
  | 0, x, y, h => infix_blank hw h
  | n + 1, x, y, h => by
    rcases infix_blank hw h with h | h
    · exact .inl h
    · rcases infix_blanks hw n (x := []) h with h | h
      · exact .inl (h.trans (List.nil_infix))
      · exact .inr h

theorem expandTabs_mark {s : Str} (h : NoMark s) : NoMark (expandTabs s) := by
  unfold expandTabs
  split
  · rename_i tb _
    split
    · generalize hr : ((s.drop tb).takeWhile (fun c => c == '\t')).length = run
      dsimp only
      intro hc
      have hbm : ∀ k, (blanks k).map lowChar = blanks k := by
        intro k
        unfold blanks
        rw [List.map_replicate]
        congr 1
      rw [List.map_append, List.map_append, List.map_append, hbm, hbm, List.append_assoc, List.append_assoc] at hc
      have hb : ∀ i j (z : Str), blanks i ++ (blanks j ++ z) = blanks (i + j) ++ z := by
        intro i j z
        unfold blanks
        rw [← List.append_assoc, List.replicate_append_replicate]
      rw [hb] at hc
      cases hk : run + 5 * run with
      | zero =>
        rw [hk] at hc
        have h0 : run = 0 := by omega
        rw [h0] at hc
        refine h ?_
        have : (s.take tb).map lowChar ++ (blanks 0 ++ (s.drop (tb + 0)).map lowChar) = s.map lowChar := by
          show (s.take tb).map lowChar ++ (s.drop tb).map lowChar = _
          rw [← List.map_append, List.take_append_drop]
        rwa [this] at hc
      | succ k =>
        rw [hk] at hc
        rcases infix_blanks (by decide) k hc with hc | hc
        · exact h (hc.trans ((List.take_prefix _ _).isInfix.map _))
        · exact h (hc.trans ((List.drop_suffix _ _).isInfix.map _))
    · exact h
  · exact h

theorem fixedLeft_case {a b : Str} (h : SameLetters a b) (pd : Char) (ri : Nat) (c : Char) :
    BothWays (fun x y => SameLetters x.1 y.1 ∧ y.2 = x.2) (fixedLeft a pd ri c) (fixedLeft b pd ri c) := by
  unfold fixedLeft
  dsimp only
  refine BW.ite (fun _ => ?_) (fun _ => BW.ok ⟨sl_refl _, rfl⟩)
  refine BW.bind (Q := fun x y => SameLetters x.1 y.1 ∧ y.2 = x.2) ?_ ?_
  · refine BW.ite (fun _ => ?_) (fun _ => ?_)
    · simp only [ne_eq, charEq_iff (sl_getD h 5) (d := '0') (.inl (by decide))]
      exact BW.ok ⟨sl_take h _, rfl⟩
    · refine BW.bind (BW.same _) (fun d d' hd => ?_)
      cases hd
      refine BW.ite (fun _ => ?_) (fun _ => BW.ok ⟨sl_refl _, rfl⟩)
      rw [scanDigits_case _ ri (sl_drop h ri)]
      refine BW.bind (BW.same _) (fun r r' hr => ?_)
      cases hr
      exact BW.ok ⟨sl_take h _, rfl⟩
  · rintro ⟨lt, bs, r⟩ ⟨lt', x⟩ ⟨hl, hx⟩
    cases hx
    dsimp only at hl ⊢
    simp only [ne_eq, sl_isEmpty hl, scanSpaces_case r (sl_drop h r), sl_length h]
    refine BW.ite (fun _ => ?_) (fun _ => BW.ok ⟨hl, rfl⟩)
    refine BW.bind (BW.same _) (fun q q' hq => ?_)
    cases hq
    exact BW.ok ⟨hl, rfl⟩

theorem fixRight_case {a b : Str} (h : SameLetters a b) (t : Nat) (lc : Int) : SameLetters (fixRight a t lc) (fixRight b t lc) := by
  unfold fixRight
  rw [findFirstNotOf_case blanksR_noLetter h]
  split
  · cases findFirstNotOf [' ', '\t', '\r'] a with
    | none => exact sl_refl _
    | some k =>
      simp only [ne_eq, charEq_iff (sl_getD h k) amp_noLetter, charEq_iff (sl_getD h k) bang_noLetter]
      split
      · exact sl_cons' rfl (sl_cons' rfl h)
      · exact h
  · exact h

theorem analyzeFixedBody_case (ln : Int) {a b lt lt' : Str} (h : SameLetters a b) (hl : SameLetters lt lt') (pd : Char) (lc : Int)
    (bs : Bits) (ri : Nat) :
    BothWays CaseLine (analyzeFixedBody ln a pd lc lt bs ri) (analyzeFixedBody ln b pd lc lt' bs ri) := by
  unfold analyzeFixedBody
  dsimp only
  rw [findTrailingFixed_case h]
  refine BW.bind (BW.same _) ?_
  rintro ⟨tb, od⟩ y hy
  cases hy
  dsimp only
  have hls : SameLetters (if ri > 6 then (a.drop 6).take (ri - 6) else []) (if ri > 6 then (b.drop 6).take (ri - 6) else []) := by
    split
    · exact sl_take (sl_drop h _) _
    · exact sl_refl _
  refine BW.bind (Q := fun x y => SameLetters x.1 y.1 ∧ SameLetters x.2 y.2) ?_ ?_
  · cases tb with
    | none => exact BW.bind (substrFrom_case h ri) (fun m m' hm => BW.ok ⟨hm, sl_refl _⟩)
    | some t =>
      dsimp only
      rw [sl_length h]
      refine BW.bind (substr_case h ri _) (fun m m' hm => ?_)
      exact BW.bind (substrFrom_case h t) (fun q q' hq => BW.ok ⟨hm, fixRight_case hq t lc⟩)
  · rintro ⟨m, q⟩ ⟨m', q'⟩ ⟨hm, hq⟩
    dsimp only at hm hq ⊢
    simp only [sl_isEmpty hm]
    exact BW.ite (fun _ => BW.err _)
      (fun _ => mkFull_case _ _ _ hl hls (trimMain_case hm od).1 (trimMain_case hm od).2 hq)

theorem analyzeFixed_noMark (ln : Int) {a b : Str} (h : SameLetters a b) (hm : NoMark a) (pd : Char) (lc : Int) :
    BothWays CaseLine (analyzeFixed ln a pd lc) (analyzeFixed ln b pd lc) := by
  unfold analyzeFixed
  dsimp only
  simp only [sl_isEmpty h]
  refine BW.ite (fun _ => BW.ok (mkLeft_case _ _ h)) (fun _ => ?_)
  replace hm := expandTabs_mark hm
  replace h := expandTabs_case h
  generalize expandTabs a = a at h hm ⊢
  generalize expandTabs b = b at h ⊢
  have hmb := noMark_case h hm
  rw [findFirstNotOf_case blanksR_noLetter h]
  cases findFirstNotOf [' ', '\t', '\r'] a with
  | none => exact BW.ok (mkLeft_case _ _ h)
  | some ri =>
    simp only [cToUpper_case (sl_getD h ri), isIncludeLine_case h, noMark_literal hm, noMark_literal hmb, noMark_directive hm,
      noMark_directive hmb]
    refine BW.bind (BW.same _) (fun c c' hc => ?_)
    cases hc
    have hbody : BothWays CaseLine
        (do
          let x ← fixedLeft a pd ri c
          match x with
          | (lt, b, r, isBlank) =>
            if isBlank then .ok (mkLeft ln { b with blank := true } a) else analyzeFixedBody ln a pd lc lt b r : Res FileLine)
        (do
          let x ← fixedLeft b pd ri c
          match x with
          | (lt, bs, r, isBlank) =>
            if isBlank then .ok (mkLeft ln { bs with blank := true } b) else analyzeFixedBody ln b pd lc lt bs r : Res FileLine) := by
      refine BW.bind (fixedLeft_case h pd ri c) ?_
      rintro ⟨lt, bs, r, ib⟩ ⟨lt', x⟩ ⟨hl, hx⟩
      cases hx
      dsimp only at hl ⊢
      exact BW.ite (fun _ => BW.ok (mkLeft_case _ _ h)) (fun _ => analyzeFixedBody_case ln h hl pd lc bs r)
    refine BW.ite (fun _ => ?_) (fun _ => hbody)
    refine BW.ite (fun _ => BW.ok (mkLeft_case _ _ h)) (fun _ => ?_)
    refine BW.bind (BW.same _) (fun i i' hi => ?_)
    cases hi
    refine BW.ite (fun _ => BW.ok (mkLeft_case _ _ h)) (fun _ => ?_)
    exact BW.ite (fun _ => BW.ok (mkLeft_case _ _ h)) (fun _ => hbody)

theorem analyzeFixed_case (ln : Int) {a b : Str} (h : Respelled a b) (pd : Char) (lc : Int) :
    BothWays CaseLine (analyzeFixed ln a pd lc) (analyzeFixed ln b pd lc) := by
  rcases h with rfl | ⟨h, hm⟩
  · exact BW.mono (BW.same _) (fun x y e => by cases e; exact caseLine_refl _)
  · exact analyzeFixed_noMark ln h hm pd lc

end FLPR
