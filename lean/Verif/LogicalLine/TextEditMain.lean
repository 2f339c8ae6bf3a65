import Verif.LogicalLine.TextEditProps
/-!
# Replacing the whole text of a line (C61)
-/

namespace FLPR
open Spec Flex

namespace Spec

/-- A line that says that the statement goes on has the mark that shows it. -/
def Marked (f : FileLine) : Prop := f.bits.continued = true → ∃ r, f.right_txt = '&' :: r

end Spec
open Spec

theorem putTexts_get (fs : List FileLine) (ts : List Str) (k : Nat) (f : FileLine) (t : Str)
    (hf : fs[k]? = some f) (ht : ts[k]? = some t) :
    (putTexts fs ts)[k]? = some { f with main_txt := t } := by
  induction fs generalizing ts k with
  | nil => simp at hf
  | cons x xs ih =>
    cases ts with
    | nil => simp at ht
    | cons y ys =>
      cases k with
      | zero =>
        simp at hf ht
        subst hf ht
        rfl
      | succ k =>
        rw [putTexts, List.getElem?_cons_succ]
        exact ih ys k (by simpa using hf) (by simpa using ht)

theorem putTexts_length (fs : List FileLine) (ts : List Str) : (putTexts fs ts).length = fs.length := by
  induction fs generalizing ts with
  | nil => cases ts <;> rfl
  | cons x xs ih =>
    cases ts with
    | nil => rfl
    | cons y ys => rw [putTexts, List.length_cons, ih, List.length_cons]

theorem changeLine_length (lay : List FileLine) (i : Nat) (g : FileLine → FileLine) :
    (changeLine lay i g).length = lay.length := by
  unfold changeLine
  cases lay[i]? <;> simp

theorem changeLine_get (lay : List FileLine) (i k : Nat) (g : FileLine → FileLine) (f : FileLine)
    (h : lay[k]? = some f) : (changeLine lay i g)[k]? = some (if i = k then g f else f) := by
  unfold changeLine
  by_cases hik : i = k
  · subst hik
    rw [h, if_pos rfl]
    exact List.getElem?_set_self (List.getElem?_eq_some_iff.mp h).1
  · rw [if_neg hik]
    cases lay[i]? with
    | none => exact h
    | some x => dsimp only; rw [List.getElem?_set_ne hik]; exact h

theorem makeContinued_marked (f : FileLine) : ∃ r, f.makeContinued.right_txt = '&' :: r := by
  unfold FileLine.makeContinued
  dsimp only
  cases hr : f.right_txt with
  | nil => exact ⟨_, rfl⟩
  | cons c t =>
    dsimp only
    split
    · exact ⟨_, rfl⟩
    · rename_i h
      obtain rfl : c = '&' := by simpa using h
      exact ⟨t, rfl⟩

theorem makeContinued_around (f : FileLine) : SameAround f f.makeContinued := by
  have h1 := makeContinued_fields f
  have h2 := makeContinued_bits f
  refine ⟨h1.2.1, h1.2.2, makeContinued_trailing f, ?_⟩
  simp only [h2]

theorem sameAround_main {f g : FileLine} (t : Str) (h : SameAround f g) :
    SameAround { f with main_txt := t } g := h

theorem sameAround_trans {f g k : FileLine} (h : SameAround f g) (h' : SameAround g k) : SameAround f k := by
  obtain ⟨a1, a2, a3, a4⟩ := h
  obtain ⟨b1, b2, b3, b4⟩ := h'
  refine ⟨b1.trans a1, b2.trans a2, b3.trans a3, ?_⟩
  rw [← a4, ← b4]

/-- The line that is added: a Fortran line, continued, without text at its left and at its right. -/
theorem addedLine_ok {ref : FileLine} (hf : ref.isFortran = true) (hm : ref.main_txt ≠ []) :
    ∃ f, addedLine ref = .ok f ∧ f.isFortran = true ∧ f.bits.continued = true ∧ f.left_txt = [] ∧
      f.right_txt = [] := by
  have hpos := mainFirstCol_pos hm
  generalize hF : ({ ref.makeContinued with left_txt := [], right_txt := [] } : FileLine) = F
  have hadd : addedLine ref = (do
      let r ← Ind.setLeading F ((ref.mainFirstCol : Int) - 1)
      .ok r.1) := by rw [← hF]; rfl
  have hb : F.bits = ref.makeContinued.bits := by rw [← hF]
  have hfo : F.isFortran = true := by
    rw [isFortran_congr (f := ref.makeContinued) (g := F) (c := F.bits.continued) (by rw [hb]),
      isFortran_congr (makeContinued_around ref).2.2.2, hf]
  have hl : F.left_txt = [] := by rw [← hF]
  have hr : F.right_txt = [] := by rw [← hF]
  obtain ⟨g, b, hg, _⟩ := setLeading_plain F (ref.mainFirstCol - 1) hl (Or.inl hr)
  rw [hadd, show ((ref.mainFirstCol : Int) - 1) = ((ref.mainFirstCol - 1 : Nat) : Int) by omega, hg]
  have hcom : F.bits.comment = false := by
    simp only [FileLine.isFortran, FileLine.isTrivial, Bool.and_eq_true, Bool.not_eq_true',
      Bool.or_eq_false_iff] at hfo
    exact hfo.1.1.1.1.1
  have hsame := setLeading_main (fun h => by rw [hcom] at h; cases h) hg
  refine ⟨g, rfl, ?_, ?_, (hsame.2.2.2.2 hl).2, by rw [(hsame.2.2.2.2 hl).1, hr]⟩
  · rw [isFortran_congr (f := F) (g := g) (c := g.bits.continued) (by rw [hsame.2.1]), hfo]
  · rw [hsame.2.1, hb, makeContinued_bits]

/-- **C61** `replace_main_text` with at least as many texts as there are lines: the texts are those of the lines,
labels, indentation and comments stay, and all lines but the last one say that they are continued.  With at most
one more text than lines, the mark of the continuation is there as well. -/
theorem C61_main_partial (st : State) (l : LLine) (new : List Str) (hne : l.layout ≠ [])
    (hc : l.isCompound = false) (hall : ∀ f ∈ l.layout, f.isFortran = true) (hch : Chained l.layout)
    (hlen : l.layout.length ≤ new.length)
    (hm : l.layout.length < new.length → ∀ f ∈ l.layout.getLast?, f.main_txt ≠ []) :
    ∃ lay', l.replaceMain st new = LLine.initFromLayout st { l with layout := lay' } ∧
      lay'.map (·.main_txt) = new ∧ (∀ f ∈ lay', f.isFortran = true) ∧ Chained lay' ∧
      (∀ (k : Nat) f, l.layout[k]? = some f → ∃ g, lay'[k]? = some g ∧ SameAround f g) ∧
      ((∀ f ∈ l.layout, Marked f) → new.length ≤ l.layout.length + 1 → ∀ g ∈ lay', Marked g) := by
  obtain ⟨ref, hlast⟩ : ∃ ref, l.layout.getLast? = some ref := by
    rw [List.getLast?_eq_some_getLast hne]; exact ⟨_, rfl⟩
  have hpos : 0 < l.layout.length := List.length_pos_iff.mpr hne
  have hrefF := hall ref (List.mem_of_getLast? hlast)
  have hfil : l.layout.filter (·.isFortran) = l.layout :=
    List.filter_eq_self.mpr (fun f hf => by simpa using hall f hf)
  have hrefC : ref.bits.continued = false := hch.2 ref (by rw [hfil]; exact hlast)
  have hcont : ∀ k f, k + 1 < l.layout.length → l.layout[k]? = some f → f.bits.continued = true := by
    intro k f hk hf
    refine hch.1 f ?_
    rw [hfil]
    rw [List.mem_iff_getElem?]
    exact ⟨k, by rw [List.getElem?_dropLast, if_pos (by omega)]; exact hf⟩
  -- the lines before the texts are put in
  obtain ⟨lay, hlay, hlaylen, hold, hadd⟩ : ∃ lay, ((if l.layout.length < new.length then do
            let f ← addedLine ref
            .ok (l.layout ++ List.replicate (new.length - l.layout.length) f)
          else .ok l.layout : Res (List FileLine)) = .ok lay) ∧ lay.length = new.length ∧
      (∀ k, k < l.layout.length → lay[k]? = l.layout[k]?) ∧
      (∀ k, l.layout.length ≤ k → k < new.length → ∃ f, lay[k]? = some f ∧ f.isFortran = true ∧
        f.bits.continued = true) := by
    by_cases hlt : l.layout.length < new.length
    · obtain ⟨f, hf, h1, h2, _⟩ := addedLine_ok hrefF (hm hlt ref hlast)
      refine ⟨l.layout ++ List.replicate (new.length - l.layout.length) f, ?_, ?_, ?_, ?_⟩
      · rw [if_pos hlt, hf]; rfl
      · simp; omega
      · intro k hk; rw [List.getElem?_append_left hk]
      · intro k hk hk'
        refine ⟨f, ?_, h1, h2⟩
        rw [List.getElem?_append_right hk, List.getElem?_replicate, if_pos (by omega)]
    · refine ⟨l.layout, by rw [if_neg hlt], by omega, fun _ _ => rfl, fun k h1 h2 => by omega⟩
  generalize hlay1 : putTexts lay new = lay1
  have hl1 : lay1.length = new.length := by rw [← hlay1, putTexts_length, hlaylen]
  generalize hlay2 : (if l.layout.length - 1 < new.length - 1
    then changeLine lay1 (l.layout.length - 1) (·.makeContinued) else lay1) = lay2
  have hl2 : lay2.length = new.length := by
    rw [← hlay2]; split
    · rw [changeLine_length, hl1]
    · exact hl1
  have hl3 : (changeLine lay2 (new.length - 1) (·.makeUncontinued)).length = new.length := by
    rw [changeLine_length, hl2]
  have hrun : l.replaceMain st new = LLine.initFromLayout st
      { l with layout := changeLine lay2 (new.length - 1) (·.makeUncontinued) } := by
    unfold LLine.replaceMain
    rw [if_neg (by rintro rfl; simp at hlen; exact hne hlen), hlast]
    dsimp only
    rw [if_neg (by simp [hc]), if_neg (by simp; exact hall), if_neg (by simp [hrefC]), hlay]
    simp only [Res.ok_bind]
    rw [if_neg (by omega), hlay1, hlay2]
  -- each line
  have hpoint : ∀ k t, new[k]? = some t → ∃ f g, lay[k]? = some f ∧
      (changeLine lay2 (new.length - 1) (·.makeUncontinued))[k]? = some g ∧ g.main_txt = t ∧ SameAround f g ∧
      g = (let f1 : FileLine := { f with main_txt := t }
        let f2 := if k = l.layout.length - 1 ∧ l.layout.length - 1 < new.length - 1 then f1.makeContinued else f1
        if k = new.length - 1 then f2.makeUncontinued else f2) := by
    intro k t ht
    have hk := (List.getElem?_eq_some_iff.mp ht).1
    obtain ⟨f, hf⟩ : ∃ f, lay[k]? = some f := ⟨_, List.getElem?_eq_getElem (by omega)⟩
    have h1 : lay1[k]? = some { f with main_txt := t } := by rw [← hlay1]; exact putTexts_get _ _ _ _ _ hf ht
    have h2 : lay2[k]? = some (if k = l.layout.length - 1 ∧ l.layout.length - 1 < new.length - 1
        then FileLine.makeContinued { f with main_txt := t } else { f with main_txt := t }) := by
      rw [← hlay2]
      by_cases hb : l.layout.length - 1 < new.length - 1
      · rw [if_pos hb, changeLine_get _ _ _ _ _ h1]
        congr 1
        by_cases hkk : l.layout.length - 1 = k
        · rw [if_pos hkk, if_pos ⟨hkk.symm, hb⟩]
        · rw [if_neg hkk, if_neg (fun h => hkk h.1.symm)]
      · rw [if_neg hb, if_neg (fun h => hb h.2)]; exact h1
    have h3 := changeLine_get _ (new.length - 1) _ (·.makeUncontinued) _ h2
    refine ⟨f, _, hf, h3, ?_, ?_, ?_⟩
    · by_cases hb : k = l.layout.length - 1 ∧ l.layout.length - 1 < new.length - 1
      · rw [if_pos hb]
        by_cases hn : new.length - 1 = k
        · rw [if_pos hn, (makeUncontinued_fields _).1, (makeContinued_fields _).1]
        · rw [if_neg hn, (makeContinued_fields _).1]
      · rw [if_neg hb]
        by_cases hn : new.length - 1 = k
        · rw [if_pos hn, (makeUncontinued_fields _).1]
        · rw [if_neg hn]
    · have hA : SameAround f (if k = l.layout.length - 1 ∧ l.layout.length - 1 < new.length - 1
          then FileLine.makeContinued { f with main_txt := t } else { f with main_txt := t }) := by
        split
        · exact makeContinued_around { f with main_txt := t }
        · exact ⟨rfl, rfl, rfl, rfl⟩
      by_cases hn : new.length - 1 = k
      · rw [if_pos hn]
        exact sameAround_trans hA (makeUncontinued_around _ _)
      · rw [if_neg hn]; exact hA
    · dsimp only
      by_cases hn : new.length - 1 = k
      · rw [if_pos hn, if_pos hn.symm]
      · have hn' : ¬ k = new.length - 1 := fun h => hn h.symm
        rw [if_neg hn, if_neg hn']
  have hforms : ∀ (k : Nat) (f : FileLine), lay[k]? = some f → f.isFortran = true := by
    intro k f hf
    have hk := (List.getElem?_eq_some_iff.mp hf).1
    by_cases hkl : k < l.layout.length
    · rw [hold k hkl] at hf; exact hall f (List.mem_of_getElem? hf)
    · obtain ⟨f', h1, h2, _⟩ := hadd k (by omega) (by omega)
      rw [h1] at hf; obtain rfl := Option.some.inj hf; exact h2
  have hmem : ∀ g ∈ changeLine lay2 (new.length - 1) (·.makeUncontinued), ∃ (k : Nat) (t : Str), new[k]? = some t ∧
      (changeLine lay2 (new.length - 1) (·.makeUncontinued))[k]? = some g := by
    intro g hg
    obtain ⟨k, hk⟩ := List.mem_iff_getElem?.mp hg
    have := (List.getElem?_eq_some_iff.mp hk).1
    exact ⟨k, _, List.getElem?_eq_getElem (by omega), hk⟩
  have hallF : ∀ g ∈ changeLine lay2 (new.length - 1) (·.makeUncontinued), g.isFortran = true := by
    intro g hg
    obtain ⟨k, t, ht, hk⟩ := hmem g hg
    obtain ⟨f, g', h1, h2, _, h4, _⟩ := hpoint k t ht
    rw [hk] at h2; obtain rfl := Option.some.inj h2
    exact (isFortran_congr h4.2.2.2).trans (hforms k f h1)
  refine ⟨_, hrun, ?_, hallF, ?_, ?_, ?_⟩
  · refine List.ext_getElem? fun k => ?_
    rw [List.getElem?_map]
    cases hk : new[k]? with
    | none =>
      rw [List.getElem?_eq_none (by rw [hl3]; exact List.getElem?_eq_none_iff.mp hk)]
      rfl
    | some t =>
      obtain ⟨f, g, _, h2, h3, _⟩ := hpoint k t hk
      rw [h2, Option.map_some, h3]
  · have hself : (changeLine lay2 (new.length - 1) (·.makeUncontinued)).filter (·.isFortran) =
        changeLine lay2 (new.length - 1) (·.makeUncontinued) :=
      List.filter_eq_self.mpr (fun f hf => by simpa using hallF f hf)
    constructor
    · rw [hself]
      intro g hg
      obtain ⟨k, hk⟩ := List.mem_iff_getElem?.mp hg
      rw [List.getElem?_dropLast, hl3] at hk
      by_cases hkn : k < new.length - 1
      · rw [if_pos hkn] at hk
        obtain ⟨f, g', h1, h2, _, _, h5⟩ := hpoint k _ (List.getElem?_eq_getElem (by omega))
        rw [hk] at h2; obtain rfl := Option.some.inj h2
        dsimp only at h5
        rw [if_neg (by omega)] at h5
        rw [h5]
        by_cases hb : k = l.layout.length - 1 ∧ l.layout.length - 1 < new.length - 1
        · rw [if_pos hb, makeContinued_bits]
        · rw [if_neg hb]
          show f.bits.continued = true
          by_cases hkl : k < l.layout.length
          · rw [hold k hkl] at h1
            refine hcont k f ?_ h1
            by_contra hne'
            exact hb ⟨by omega, by omega⟩
          · obtain ⟨f', e1, _, e3⟩ := hadd k (by omega) (by omega)
            rw [e1] at h1; obtain rfl := Option.some.inj h1; exact e3
      · rw [if_neg hkn] at hk; cases hk
    · rw [hself]
      intro g hg
      rw [Option.mem_def, List.getLast?_eq_getElem?, hl3] at hg
      obtain ⟨f, g', h1, h2, _, _, h5⟩ := hpoint (new.length - 1) _ (List.getElem?_eq_getElem (by omega))
      rw [hg] at h2; obtain rfl := Option.some.inj h2
      dsimp only at h5
      rw [if_pos rfl] at h5
      rw [h5, makeUncontinued_bits]
  · intro k f hf
    have hk := (List.getElem?_eq_some_iff.mp hf).1
    obtain ⟨f', g, h1, h2, _, h4, _⟩ := hpoint k _ (List.getElem?_eq_getElem (by omega))
    rw [hold k hk, hf] at h1; obtain rfl := Option.some.inj h1
    exact ⟨g, h2, h4⟩
  · intro hmk hle g hg
    obtain ⟨k, t, ht, hk⟩ := hmem g hg
    have hkn := (List.getElem?_eq_some_iff.mp ht).1
    obtain ⟨f, g', h1, h2, _, _, h5⟩ := hpoint k t ht
    rw [hk] at h2; obtain rfl := Option.some.inj h2
    dsimp only at h5
    intro hgc
    by_cases hn : k = new.length - 1
    · rw [if_pos hn] at h5
      rw [h5, makeUncontinued_bits] at hgc
      cases hgc
    · rw [if_neg hn] at h5
      by_cases hb : k = l.layout.length - 1 ∧ l.layout.length - 1 < new.length - 1
      · rw [if_pos hb] at h5; rw [h5]; exact makeContinued_marked _
      · rw [if_neg hb] at h5
        rw [h5] at hgc ⊢
        have hkl : k < l.layout.length := by omega
        rw [hold k hkl] at h1
        exact hmk f (List.mem_of_getElem? h1) hgc

/-- **C61** With fewer texts than lines an assertion always fails. -/
theorem C61_violation_fewer (st : State) (l : LLine) (new : List Str) (hne : new ≠ [])
    (hlt : new.length < l.layout.length) : l.replaceMain st new = .error .assertion := by
  unfold LLine.replaceMain
  rw [if_neg hne]
  cases hl : l.layout.getLast? with
  | none => rfl
  | some ref =>
    dsimp only
    by_cases h1 : l.isCompound = true
    · rw [if_pos h1]
    · rw [if_neg h1]
      by_cases h2 : l.layout.all (·.isFortran) = true
      · rw [if_neg (by simpa using h2)]
        by_cases h3 : ref.bits.continued = true
        · rw [if_pos h3]
        · rw [if_neg h3, if_neg (by omega)]
          simp only [Res.ok_bind]
          rw [if_pos (by omega)]
      · rw [if_pos h2]

end FLPR
