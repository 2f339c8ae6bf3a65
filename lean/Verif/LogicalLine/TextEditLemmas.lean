import Verif.LogicalLine.TextEdit
import Verif.LogicalLine.TextEditSpec
import Verif.LogicalLine.SplitMore
/-!
# Lemmas about text edits (C61)
-/

namespace FLPR
open Spec

theorem lineAt_ok {lay : List FileLine} {k : Nat} {f : FileLine} (h : lay[k]? = some f) :
    lineAt lay (k : Int) = .ok f := by
  unfold lineAt
  rw [if_neg (by omega)]
  simp [h]

theorem strReplace_ok {s : Str} {k n : Nat} {new : Str} (h : k ≤ s.length) :
    strReplace s (k : Int) n new = .ok (s.take k ++ new ++ s.drop (k + n)) := by
  unfold strReplace
  rw [if_pos ⟨by omega, by simpa using h⟩]
  simp

theorem allText_set {lay : List FileLine} {k : Nat} {f : FileLine} (g : FileLine) (h : lay[k]? = some f) :
    allText (lay.set k g) = allText (lay.take k) ++ g.main_txt ++ allText (lay.drop (k + 1)) := by
  have hk := (List.getElem?_eq_some_iff.mp h)
  rw [List.set_eq_take_append_cons_drop, if_pos hk.1, allText_append]
  show _ ++ (g.main_txt ++ allText _) = _
  rw [List.append_assoc]

/-- The text in front of column `a` of line `k`. -/
theorem allText_upto {lay : List FileLine} {k a : Nat} {f : FileLine} (h : lay[k]? = some f)
    (ha : a ≤ f.main_txt.length) :
    (allText lay).take ((allText (lay.take k)).length + a) = allText (lay.take k) ++ f.main_txt.take a := by
  rw [allText_around h, List.append_assoc, List.take_length_add_append,
    List.take_append_of_le_length ha]

/-- The text behind column `b` of line `k`. -/
theorem allText_from {lay : List FileLine} {k b : Nat} {f : FileLine} (h : lay[k]? = some f)
    (hb : b ≤ f.main_txt.length) :
    (allText lay).drop ((allText (lay.take k)).length + b) =
      f.main_txt.drop b ++ allText (lay.drop (k + 1)) := by
  rw [allText_around h, List.append_assoc, ← List.drop_drop, List.drop_left' rfl,
    List.drop_append_of_le_length hb]

/-- Text between two columns of a line is replaced. -/
theorem allText_splice {lay : List FileLine} {k a b : Nat} {f : FileLine} {new : Str} (g : FileLine)
    (h : lay[k]? = some f) (ha : a ≤ f.main_txt.length) (hb : b ≤ f.main_txt.length)
    (hg : g.main_txt = f.main_txt.take a ++ new ++ f.main_txt.drop b) :
    allText (lay.set k g) = Spliced (allText lay) ((allText (lay.take k)).length + a)
      ((allText (lay.take k)).length + b) new := by
  unfold Spliced
  rw [allText_set g h, allText_upto h ha, allText_from h hb, hg]
  simp [List.append_assoc]

theorem insertText_ok {lay : List FileLine} {k c : Nat} {f : FileLine} (new : Str)
    (h : lay[k]? = some f) (hc : c ≤ f.main_txt.length) :
    ∃ lay', insertText lay (k : Int) (c : Int) new = .ok lay' ∧ Inserted lay lay' k c new ∧
      allText lay' = Spliced (allText lay) ((allText (lay.take k)).length + c)
        ((allText (lay.take k)).length + c) new := by
  have hk := (List.getElem?_eq_some_iff.mp h)
  refine ⟨lay.set k { f with main_txt := f.main_txt.take c ++ new ++ f.main_txt.drop c }, ?_,
    ⟨f, h, hc, rfl⟩, allText_splice _ h hc hc rfl⟩
  unfold insertText
  rw [if_neg (by simp; exact hk.1), lineAt_ok h]
  simp only [Res.ok_bind]
  rw [if_neg (by simp; exact hc), strReplace_ok hc]
  simp

/-- The place of a token: its first line and column, its last line, and the column behind its text. -/
theorem places_ends {lay : List FileLine} {s : Span} {text : Str} (h : Places lay s text) :
    ∃ (bl bc el : Nat) (fb fe : FileLine), s.bl = bl ∧ s.bc = bc ∧ s.el = el ∧ lay[bl]? = some fb ∧
      lay[el]? = some fe ∧ bl ≤ el ∧ bc ≤ fb.main_txt.length ∧
      (endCol s text).toNat ≤ fe.main_txt.length := by
  have h2 := places_interval h
  obtain ⟨bl, bc, el, ec, fb, fe, rfl, a1, a2, a3, a4, a5, a6⟩ := h
  exact ⟨bl, bc, el, fb, fe, rfl, rfl, rfl, a1, a2, a3, a4, h2.2.2.1 fe a2⟩

/-- A single-line end column is never negative. -/
theorem endCol_nat {lay : List FileLine} {s : Span} {text : Str} (h : Places lay s text)
    (hs : s.bl = s.el) : 0 ≤ endCol s text := by
  obtain ⟨bl, bc, el, ec, fb, fe, rfl, a1, a2, a3, a4, a5, a6⟩ := h
  unfold endCol
  rw [if_pos hs]
  dsimp only
  omega

/-! ### Erasing -/

theorem findChar_notMem {c : Char} {s : Str} (h : c ∉ s) : findChar c s = none := by
  unfold findChar
  rw [List.findIdx?_eq_none_iff]
  intro x hx
  simp only [beq_eq_false_iff_ne]
  rintro rfl
  exact h hx

/-- A Fortran line without comment is made blank. -/
theorem makeCommentOrBlank_blank {f : FileLine} (hf : f.isFortran = true) (hn : NoComment f) :
    f.makeCommentOrBlank = .ok f.makeBlank := by
  unfold FileLine.makeCommentOrBlank
  simp only [FileLine.isFortran, FileLine.isTrivial, Bool.and_eq_true, Bool.not_eq_true',
    Bool.or_eq_false_iff] at hf
  obtain ⟨⟨⟨⟨⟨h1, h2⟩, _⟩, _⟩, _⟩, _⟩ := hf
  rw [h1, h2]
  simp only [Bool.false_eq_true, if_false]
  unfold NoComment at hn
  cases hc : f.bits.continued with
  | true =>
    rw [hc, if_pos rfl] at hn
    obtain ⟨r, hr, hr'⟩ := hn
    rw [if_pos rfl, hr]
    simp only [Res.ok_bind]
    rw [findChar_notMem (by simp [hr'])]
    rfl
  | false =>
    rw [hc, if_neg (by simp)] at hn
    rw [if_neg (by simp)]
    simp only [Res.ok_bind]
    rw [findChar_notMem hn]

theorem makeBlank_notFortran (f : FileLine) : f.makeBlank.isFortran = false := by
  simp [FileLine.makeBlank, FileLine.isFortran, FileLine.isTrivial]

/-- The lines in between are made blank, and those that are not Fortran are left alone. -/
theorem eraseMid_ok (fs : List FileLine) (h : ∀ f ∈ fs, f.isFortran = true → NoComment f) :
    eraseMid fs = .ok (fs.map (fun f => if f.isFortran then f.makeBlank else f)) := by
  induction fs with
  | nil => rfl
  | cons f fs ih =>
    rw [eraseMid, ih (fun g hg => h g (by simp [hg]))]
    cases hf : f.isFortran with
    | true =>
      rw [if_pos rfl, makeCommentOrBlank_blank hf (h f (by simp) hf)]
      simp [hf]
    | false =>
      simp [hf]

theorem filter_fortran_mid (fs : List FileLine) :
    (fs.map (fun f => if f.isFortran then f.makeBlank else f)).filter (·.isFortran) = [] := by
  rw [List.filter_eq_nil_iff]
  intro g hg
  obtain ⟨f, _, rfl⟩ := List.mem_map.mp hg
  cases hf : f.isFortran with
  | true => simp [makeBlank_notFortran]
  | false => simp [hf]

theorem allText_mid (fs : List FileLine) (h : ∀ f ∈ fs, f.isFortran = false → f.main_txt = []) :
    allText (fs.map (fun f => if f.isFortran then f.makeBlank else f)) = [] := by
  unfold allText
  rw [List.flatMap_eq_nil_iff]
  intro g hg
  obtain ⟨f, hf, rfl⟩ := List.mem_map.mp hg
  cases hff : f.isFortran with
  | true => simp [FileLine.makeBlank]
  | false => simpa using h f hf hff

theorem squeeze_blanks (n : Nat) : squeeze (blanks n) = [] := by
  simp [squeeze, blanks]

theorem squeeze_nil_blank {s : Str} (h : squeeze s = []) : findFirstNotOf [' '] s = none := by
  unfold findFirstNotOf
  rw [List.findIdx?_eq_none_iff]
  intro c hc
  simp only [squeeze, List.filter_eq_nil_iff] at h
  simpa using h c hc

theorem squeeze_of_blank {s : Str} (h : findFirstNotOf [' '] s = none) : squeeze s = [] := by
  rw [findFirst_blank_none h, squeeze_blanks]

/-- One line: the text between two columns goes away; a text of blanks is cleared. -/
theorem eraseLast_one {f : FileLine} {a b : Nat} (hab : a ≤ b) (hb : b ≤ f.main_txt.length) :
    eraseLast f a b false = .ok { f with main_txt := (if squeeze (f.main_txt.take a ++ f.main_txt.drop b) = []
      then [] else f.main_txt.take a ++ f.main_txt.drop b) } := by
  unfold eraseLast
  rw [if_neg (by omega), if_neg (by omega), if_neg (by simp; exact hb), strReplace_ok (by omega)]
  rw [show a + ((b : Int) - (a : Int)).toNat = b by omega, List.append_nil]
  simp only [Res.ok_bind]
  cases hm : findFirstNotOf [' '] (f.main_txt.take a ++ f.main_txt.drop b) with
  | none =>
    rw [if_pos (squeeze_of_blank hm)]
    simp
  | some k =>
    have hne : squeeze (f.main_txt.take a ++ f.main_txt.drop b) ≠ [] := fun h => by
      rw [squeeze_nil_blank h] at hm; cases hm
    simp only [hne, if_false]

/-- The last of several lines: its text up to a column goes away; if nothing is left, the line is made blank. -/
theorem eraseLast_many {f : FileLine} {b : Nat} (hb : b ≤ f.main_txt.length) (hf : f.isFortran = true)
    (hn : squeeze (f.main_txt.drop b) = [] → NoComment f) :
    eraseLast f 0 b true = .ok (if squeeze (f.main_txt.drop b) = [] then f.makeBlank
      else { f with main_txt := f.main_txt.drop b }) := by
  unfold eraseLast
  rw [if_neg (by omega), if_neg (by omega), if_neg (by simp; exact hb)]
  have := strReplace_ok (s := f.main_txt) (k := 0) (n := ((b : Int) - 0).toNat) (new := []) (by omega)
  rw [show ((0 : Nat) : Int) = 0 from rfl] at this
  rw [this]
  rw [show 0 + ((b : Int) - 0).toNat = b by omega, List.append_nil, List.take_zero, List.nil_append]
  simp only [Res.ok_bind]
  cases hm : findFirstNotOf [' '] (f.main_txt.drop b) with
  | none =>
    rw [if_pos (squeeze_of_blank hm)]
    simp only [if_true]
    have hf' : ({ f with main_txt := [] } : FileLine).isFortran = true := hf
    have hn' : NoComment ({ f with main_txt := [] } : FileLine) := hn (squeeze_of_blank hm)
    rw [makeCommentOrBlank_blank hf' hn']
    rfl
  | some k =>
    have hne : squeeze (f.main_txt.drop b) ≠ [] := fun h => by rw [squeeze_nil_blank h] at hm; cases hm
    simp only [hne, if_false]

theorem makeUncontinued_around (f : FileLine) (m : Str) :
    SameAround f { f.makeUncontinued with main_txt := m } := by
  have h1 := makeUncontinued_fields f
  have h2 := makeUncontinued_bits f
  refine ⟨h1.2.1, h1.2.2, makeUncontinued_trailing f, ?_⟩
  simp only [h2]

theorem isFortran_congr {f g : FileLine} {c : Bool} (h : { g.bits with continued := c } = f.bits) :
    g.isFortran = f.isFortran := by
  unfold FileLine.isFortran FileLine.isTrivial
  rw [← h]

theorem makeUncontinued_main (f : FileLine) (m : Str) :
    ({ f with main_txt := m } : FileLine).makeUncontinued = { f.makeUncontinued with main_txt := m } := by
  unfold FileLine.makeUncontinued
  dsimp only
  cases f.right_txt with
  | nil => rfl
  | cons h t =>
    dsimp only
    cases findFirstNotOf [' '] ((if h = '&' then ' ' else h) :: t) <;> rfl

/-- What is left of the text around the columns `a` to `b`, when the text is put back at column `a`. -/
theorem replace_one {lay : List FileLine} {k a b : Nat} {f : FileLine} (h : lay[k]? = some f)
    (hf : f.isFortran = true) (hab : a ≤ b) (hb : b ≤ f.main_txt.length) :
    ∃ g, eraseText lay k a k b = .ok (lay.set k g) ∧ (lay.set k g)[k]? = some g ∧
      g = { f.makeUncontinued with main_txt := (if squeeze (f.main_txt.take a ++ f.main_txt.drop b) = []
        then [] else f.main_txt.take a ++ f.main_txt.drop b) } := by
  have hk := (List.getElem?_eq_some_iff.mp h)
  refine ⟨_, ?_, List.getElem?_set_self hk.1, rfl⟩
  unfold eraseText
  rw [if_neg (by omega), if_neg (by omega), if_neg (by have := hk.1; omega), lineAt_ok h]
  simp only [Res.ok_bind]
  rw [if_neg (by simp [hf]), if_neg (by omega), eraseLast_one hab hb]
  simp only [Res.ok_bind, Int.toNat_natCast]
  congr 2
  unfold eraseUncontinue
  generalize (if squeeze (f.main_txt.take a ++ f.main_txt.drop b) = [] then []
    else f.main_txt.take a ++ f.main_txt.drop b) = m
  have hf' : ({ f with main_txt := m } : FileLine).isFortran = true := hf
  rw [if_pos (by simp [hf']), makeUncontinued_main]

theorem replace_many {lay : List FileLine} {k n a b : Nat} {f g : FileLine} (hk : lay[k]? = some f)
    (hn : lay[n]? = some g) (hkn : k < n) (hf : f.isFortran = true) (hg : g.isFortran = true)
    (ha : a ≤ f.main_txt.length) (hb : b ≤ g.main_txt.length)
    (hmid : ∀ m ∈ (lay.drop (k + 1)).take (n - k - 1), m.isFortran = true → NoComment m)
    (hlast : squeeze (g.main_txt.drop b) = [] → NoComment g) :
    eraseText lay k a n b = .ok (lay.take k ++
      { (if squeeze (g.main_txt.drop b) = [] then f.makeUncontinued else f) with main_txt := f.main_txt.take a } ::
      (((lay.drop (k + 1)).take (n - k - 1)).map (fun f => if f.isFortran then f.makeBlank else f) ++
        (if squeeze (g.main_txt.drop b) = [] then g.makeBlank else { g with main_txt := g.main_txt.drop b }) ::
        lay.drop (n + 1))) := by
  have hn' := (List.getElem?_eq_some_iff.mp hn)
  unfold eraseText
  rw [if_neg (by omega), if_neg (by omega), if_neg (by have := hn'.1; omega), lineAt_ok hk]
  simp only [Res.ok_bind]
  rw [if_neg (by simp [hf]), if_pos (by omega), lineAt_ok hn]
  simp only [Res.ok_bind]
  rw [if_neg (by simp [hg]), strReplace_ok ha]
  simp only [Res.ok_bind, Int.toNat_natCast]
  rw [eraseMid_ok _ hmid, eraseLast_many hb hg hlast]
  simp only [Res.ok_bind]
  rw [List.drop_eq_nil_of_le (by omega), List.append_nil, List.append_nil]
  congr 3
  unfold eraseUncontinue
  have hf' : ({ f with main_txt := f.main_txt.take a } : FileLine).isFortran = true := hf
  by_cases hq : squeeze (g.main_txt.drop b) = []
  · rw [if_pos hq, if_pos hq, List.filter_cons_of_pos (by simpa using hf'), List.filter_append, filter_fortran_mid,
      List.filter_cons_of_neg (by simp [makeBlank_notFortran])]
    simp only [List.filter_nil, List.append_nil, List.length_cons, List.length_nil, Nat.zero_add, if_true]
    rw [makeUncontinued_main]
  · rw [if_neg hq, if_neg hq, List.filter_cons_of_pos (by simpa using hf'), List.filter_append, filter_fortran_mid]
    have hg' : ({ g with main_txt := g.main_txt.drop b } : FileLine).isFortran = true := hg
    rw [List.filter_cons_of_pos (by simpa using hg')]
    simp

end FLPR
