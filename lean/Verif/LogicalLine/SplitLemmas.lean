import Verif.LogicalLine.Split
import Verif.LogicalLine.EditProps
import Verif.FileLine.ModProps2
import Mathlib.Data.List.Forall2
/-! # Helper lemmas for `split_after` -/

namespace FLPR
open Spec

/-! ## The tokens -/

theorem takeOnLine_spec {line : Int} {ts x y : List Tok} (h : takeOnLine line ts = .ok (x, y)) :
    ts = x ++ y ∧ (∀ t ∈ x, ∃ s, t.span = some s ∧ s.bl = line) ∧
    (∀ t, y.head? = some t → ∃ s, t.span = some s ∧ s.bl ≠ line) := by
  induction ts generalizing x y with
  | nil => simp [takeOnLine] at h; obtain ⟨rfl, rfl⟩ := h; simp
  | cons t ts ih =>
    unfold takeOnLine at h
    cases hs : t.span with
    | none => rw [hs] at h; simp at h
    | some s =>
      rw [hs] at h
      by_cases hb : s.bl = line
      · simp only [if_pos hb] at h
        rbind h with r hr
        obtain ⟨r1, r2⟩ := r
        simp only [Except.ok.injEq, Prod.mk.injEq] at h
        obtain ⟨rfl, rfl⟩ := h
        obtain ⟨h1, h2, h3⟩ := ih hr
        refine ⟨by rw [h1]; rfl, ?_, h3⟩
        intro u hu
        rcases List.mem_cons.mp hu with rfl | hu
        · exact ⟨s, hs, hb⟩
        · exact h2 u hu
      · simp only [if_neg hb, Except.ok.injEq, Prod.mk.injEq] at h
        obtain ⟨rfl, rfl⟩ := h
        refine ⟨rfl, by simp, ?_⟩
        intro u hu
        simp at hu
        subst hu
        exact ⟨s, hs, hb⟩

theorem takeOnLine_ok {line : Int} {ts : List Tok} (h : ∀ t ∈ ts, t.span ≠ none) :
    ∃ r, takeOnLine line ts = .ok r := by
  induction ts with
  | nil => exact ⟨_, rfl⟩
  | cons t ts ih =>
    unfold takeOnLine
    cases hs : t.span with
    | none => exact absurd hs (h t (by simp))
    | some s =>
      dsimp only
      obtain ⟨r, hr⟩ := ih (fun u hu => h u (by simp [hu]))
      rw [hr]
      split
      · exact ⟨_, rfl⟩
      · exact ⟨_, rfl⟩

theorem dropSemis_spec (ts : List Tok) : ∃ semis, ts = semis ++ dropSemis ts ∧
    (∀ t ∈ semis, t.token = Tag.TK_SEMICOLON) ∧
    (∀ t, (dropSemis ts).head? = some t → t.token ≠ Tag.TK_SEMICOLON) := by
  refine ⟨ts.takeWhile Tok.isSemi, (List.takeWhile_append_dropWhile ..).symm, ?_, ?_⟩
  · intro t ht
    have := List.all_takeWhile (p := Tok.isSemi) (l := ts)
    rw [List.all_eq_true] at this
    simpa [Tok.isSemi] using this t ht
  · intro t ht
    have := List.head?_dropWhile_not Tok.isSemi ts
    unfold dropSemis at ht
    rw [ht] at this
    simpa [Tok.isSemi] using this

theorem sameToken_shiftCol (off : Int) (t : Tok) : SameToken t (t.shiftCol off) :=
  ⟨rfl, rfl, rfl, rfl, rfl, rfl, rfl⟩

theorem sameToken_shiftLine (d : Int) (t : Tok) : SameToken t (t.shiftLine d) :=
  ⟨rfl, rfl, rfl, rfl, rfl, rfl, rfl⟩

theorem _root_.FLPR.Spec.SameToken.trans {a b c : Tok} (h : SameToken a b) (h' : SameToken b c) :
    SameToken a c := by
  obtain ⟨h1, h2, h3, h4, h5, h6, h7⟩ := h
  obtain ⟨g1, g2, g3, g4, g5, g6, g7⟩ := h'
  exact ⟨g1.trans h1, g2.trans h2, g3.trans h3, g4.trans h4, g5.trans h5, g6.trans h6, g7.trans h7⟩

theorem forall2_map_same (f : Tok → Tok) (h : ∀ t, SameToken t (f t)) (ts : List Tok) :
    List.Forall₂ SameToken ts (ts.map f) := by
  induction ts with
  | nil => exact .nil
  | cons t ts ih => exact .cons (h t) ih

/-! ## What a successful call has done -/

/-- The facts that all ways through the function share: the token `t` at position `i` ends at `s` in
line `k`, which is `f`; `semis` are passed over, `here` are the further tokens that begin in this line,
and `later` the rest. -/
structure SplitAt (l : LLine) (i : Nat) (t : Tok) (s : Span) (k : Nat) (f f0 : FileLine)
    (semis here later : List Tok) : Prop where
  tok : l.frags[i]? = some t
  span : t.span = some s
  el : s.el = k
  size : k < l.frags.length
  line : l.layout[k]? = some f
  first : l.layout[0]? = some f0
  rest : l.frags.drop (i + 1) = semis ++ here ++ later
  semi : ∀ u ∈ semis, u.token = Tag.TK_SEMICOLON
  onLine : ∀ u ∈ semis ++ here, ∃ su, u.span = some su ∧ su.bl = k
  notSemi : ∀ u, here.head? = some u → u.token ≠ Tag.TK_SEMICOLON
  offLine : ∀ u, later.head? = some u → ∃ su, u.span = some su ∧ su.bl ≠ k

/-- The ways in which `split_after` returns. -/
inductive Outcome (l : LLine) (i : Nat) (new : LLine) : Bool → LLine → LLine → Prop
  | atEnd (hi : i = l.frags.length) : Outcome l i new false l new
  | nothing {t s k f f0 semis later} (h : SplitAt l i t s k f f0 semis [] later)
      (hb : l.layout.drop (k + 1) = []) :
      Outcome l i new false { l with layout := l.layout.take k ++ [f.makeUncontinued] } new
  | between {t s k f f0 semis later fs u su} (h : SplitAt l i t s k f f0 semis [] later)
      (hb : l.layout.drop (k + 1) ≠ [])
      (hf : splitFollow ((f0.mainFirstCol : Int) - 1) (l.layout.drop (k + 1)) = .ok fs)
      (hu : later.head? = some u) (hsu : u.span = some su) :
      Outcome l i new true
        { l with layout := l.layout.take k ++ [f.makeUncontinued], frags := l.frags.take (i + 1), semis := -1, stmts := [] }
        { layout := fs, frags := later.map (·.shiftLine (-su.bl)) }
  | inside {t s k f f0 semis here later u su f1 f2} (h : SplitAt l i t s k f f0 semis here later)
      (hu : here.head? = some u) (hsu : u.span = some su)
      (h1 : splitSource f s.ec = .ok f1)
      (h2 : splitNew f su.bc ((f0.mainFirstCol : Int) - 1) = .ok f2) :
      Outcome l i new true
        { l with layout := l.layout.take k ++ [f1], frags := l.frags.take (i + 1), semis := -1, stmts := [] }
        { layout := f2 :: l.layout.drop (k + 1),
          frags := ((here.map (·.shiftCol su.bc) ++ later).map (·.shiftLine 1)).map (·.shiftLine (-(k + 1))) }

theorem splitFollow_nil {left : Int} {fs gs : List FileLine} (h : splitFollow left fs = .ok gs) :
    gs = [] ↔ fs = [] := by
  cases fs with
  | nil => simp [splitFollow] at h; simp [h]
  | cons f fs =>
    unfold splitFollow at h
    split at h
    · rbind h with x hx
      rbind h with y hy
      injection h with h; subst h; simp
    · rbind h with x hx
      injection h with h; subst h; simp

theorem splitAfter_outcome {l : LLine} {i : Nat} {new l' n : LLine} {b : Bool}
    (h : l.splitAfter i new = .ok (b, l', n)) : Outcome l i new b l' n := by
  unfold LLine.splitAfter at h
  split at h
  · rename_i hi
    simp only [Except.ok.injEq, Prod.mk.injEq] at h
    obtain ⟨rfl, rfl, rfl⟩ := h
    exact .atEnd hi
  cases ht : l.frags[i]? with
  | none => rw [ht] at h; simp at h
  | some t =>
  rw [ht] at h
  dsimp only at h
  cases hs : t.span with
  | none => rw [hs] at h; simp at h
  | some s =>
  rw [hs] at h
  dsimp only at h
  split at h
  · simp at h
  rename_i hsz
  cases h0 : l.layout[0]? with
  | none => rw [h0] at h; simp at h
  | some f0 =>
  rw [h0] at h
  dsimp only at h
  rbind h with r hr
  obtain ⟨x, y⟩ := r
  dsimp only at h
  split at h
  · simp at h
  rename_i hneg
  obtain ⟨k, hk⟩ : ∃ k : Nat, s.el = k := ⟨s.el.toNat, by omega⟩
  have hkn : s.el.toNat = k := by omega
  rw [hkn] at h
  cases hf : l.layout[k]? with
  | none => rw [hf] at h; simp at h
  | some f =>
  rw [hf] at h
  dsimp only at h
  obtain ⟨e1, e2, e3⟩ := takeOnLine_spec hr
  obtain ⟨semis, d1, d2, d3⟩ := dropSemis_spec x
  have hat : SplitAt l i t s k f f0 semis (dropSemis x) y := by
    refine ⟨ht, hs, hk, by omega, hf, h0, by rw [e1, ← d1], d2, ?_, d3, ?_⟩
    · rw [← d1, ← hk]; exact e2
    · rw [← hk]; exact e3
  cases hd : dropSemis x with
  | nil =>
    rw [hd] at h hat
    dsimp only at h
    rbind h with fs hfs
    unfold splitFinish at h
    have hn := splitFollow_nil hfs
    split at h
    · rename_i he
      simp only [Except.ok.injEq, Prod.mk.injEq] at h
      obtain ⟨rfl, rfl, rfl⟩ := h
      exact .nothing hat (hn.mp he)
    · rename_i he
      cases hu : y.head? with
      | none => rw [hu] at h; simp at h
      | some u =>
        rw [hu] at h
        dsimp only at h
        cases hsu : u.span with
        | none => rw [hsu] at h; simp at h
        | some su =>
          rw [hsu] at h
          simp only [Except.ok.injEq, Prod.mk.injEq] at h
          obtain ⟨rfl, rfl, rfl⟩ := h
          exact .between hat (fun h => he (hn.mpr h)) hfs hu hsu
  | cons u us =>
    rw [hd] at h hat
    dsimp only at h
    cases hsu : u.span with
    | none => rw [hsu] at h; simp at h
    | some su =>
      rw [hsu] at h
      dsimp only at h
      rbind h with f1 h1
      rbind h with f2 h2
      unfold splitFinish at h
      rw [if_neg (by simp)] at h
      obtain ⟨su', hsu', hbl⟩ := hat.onLine u (by simp)
      rw [hsu] at hsu'
      obtain rfl := Option.some.inj hsu'
      obtain ⟨sv, hsv, hvbl⟩ : ∃ sv, ((u.shiftCol su.bc).shiftLine 1).span = some sv ∧ sv.bl = k + 1 := by
        refine ⟨_, by simp only [Tok.shiftLine, Tok.shiftCol, hsu, Option.map_some]; rfl, ?_⟩
        unfold Span.shift
        split <;> simp [hbl]
      simp only [List.map_cons, List.cons_append, List.head?_cons, hsv, hvbl,
        Except.ok.injEq, Prod.mk.injEq] at h
      obtain ⟨rfl, rfl, rfl⟩ := h
      exact Outcome.inside (new := new) hat rfl hsu h1 h2

/-! ## Positions -/

/-- Positions depend on the texts of the lines only. -/
theorem places_congr {a b : List FileLine} {s : Span} {text : Str}
    (h : a.map (·.main_txt) = b.map (·.main_txt)) (hp : Places a s text) : Places b s text := by
  have hget : ∀ (k : Nat) (f : FileLine), a[k]? = some f → ∃ g, b[k]? = some g ∧ g.main_txt = f.main_txt := by
    intro k f hf
    have := congrArg (fun x => x[k]?) h
    simp only [List.getElem?_map, hf, Option.map_some] at this
    cases hb : b[k]? with
    | none => rw [hb] at this; simp at this
    | some g => rw [hb] at this; exact ⟨g, rfl, by simpa using this.symm⟩
  obtain ⟨bl, bc, el, ec, fb, fe, rfl, h1, h2, h3, h4, h5, h6⟩ := hp
  obtain ⟨gb, g1, e1⟩ := hget _ _ h1
  obtain ⟨ge, g2, e2⟩ := hget _ _ h2
  refine ⟨bl, bc, el, ec, gb, ge, rfl, g1, g2, h3, by rw [e1]; exact h4, by rw [e1]; exact h5, ?_⟩
  intro hlt
  rw [e1, e2]
  have hm : ((b.drop (bl + 1)).take (el - bl - 1)).flatMap (·.main_txt) =
      ((a.drop (bl + 1)).take (el - bl - 1)).flatMap (·.main_txt) := by
    rw [List.flatMap_def, List.flatMap_def, List.map_take, List.map_drop, List.map_take, List.map_drop, h]
  rw [hm]
  exact h6 hlt

/-- A token that ends before line `k` keeps its place when the lines from `k` on go. -/
theorem places_take {a : List FileLine} {s : Span} {text : Str} (k : Nat) (hp : Places a s text)
    (h : s.el < k) : Places (a.take k) s text := by
  obtain ⟨bl, bc, el, ec, fb, fe, rfl, h1, h2, h3, h4, h5, h6⟩ := hp
  dsimp only at h
  refine ⟨bl, bc, el, ec, fb, fe, rfl, ?_, ?_, h3, h4, h5, ?_⟩
  · rw [List.getElem?_take_of_lt (by omega)]; exact h1
  · rw [List.getElem?_take_of_lt (by omega)]; exact h2
  · intro hlt
    rw [List.drop_take, List.take_take, Nat.min_eq_left (by omega)]
    exact h6 hlt

/-- A position `d` lines further down. -/
def Span.down (s : Span) (d : Int) : Span := { s with bl := s.bl + d, el := s.el + d }

theorem endCol_down (s : Span) (d : Int) (text : Str) : endCol (s.down d) text = endCol s text := by
  unfold endCol Span.down
  simp

theorem precedes_down {s s' : Span} {text : Str} (d : Int) (h : Precedes s text s') :
    Precedes (s.down d) text (s'.down d) := by
  unfold Precedes at *
  rw [endCol_down]
  unfold Span.down
  dsimp only
  rcases h with h | ⟨h, h'⟩
  · exact Or.inl (by omega)
  · exact Or.inr ⟨by omega, h'⟩

/-- A token that begins in line `k` or later has its place when the first `k` lines go. -/
theorem places_drop {a : List FileLine} {s : Span} {text : Str} (k : Nat) (hp : Places a s text)
    (h : (k : Int) ≤ s.bl) : Places (a.drop k) (s.down (-k)) text := by
  obtain ⟨bl, bc, el, ec, fb, fe, rfl, h1, h2, h3, h4, h5, h6⟩ := hp
  dsimp only at h
  refine ⟨bl - k, bc, el - k, ec, fb, fe, ?_, ?_, ?_, by omega, h4, ?_, ?_⟩
  · unfold Span.down
    simp only [Span.mk.injEq, true_and, and_true]
    omega
  · rw [List.getElem?_drop, show k + (bl - k) = bl by omega]; exact h1
  · rw [List.getElem?_drop, show k + (el - k) = el by omega]; exact h2
  · intro h; exact h5 (by omega)
  · intro hlt
    rw [List.drop_drop, show k + (bl - k + 1) = bl + 1 by omega, show el - k - (bl - k) - 1 = el - bl - 1 by omega]
    exact h6 (by omega)

theorem places_bl_le {a : List FileLine} {s : Span} {text : Str} (hp : Places a s text) :
    0 ≤ s.bl ∧ s.bl ≤ s.el ∧ 0 ≤ s.bc := by
  obtain ⟨bl, bc, el, ec, fb, fe, rfl, h1, h2, h3, h4, h5, h6⟩ := hp
  refine ⟨?_, ?_, ?_⟩ <;> dsimp only <;> omega

/-! ## The lines -/

theorem makeUncontinued_parts (f : FileLine) : f.makeUncontinued.main_txt = f.main_txt ∧
    f.makeUncontinued.left_txt = f.left_txt ∧ f.makeUncontinued.left_space = f.left_space ∧
    f.makeUncontinued.bits = { f.bits with continued := false } ∧
    f.makeUncontinued.linenum = f.linenum ∧ f.makeUncontinued.open_delim = f.open_delim := by
  unfold FileLine.makeUncontinued
  dsimp only
  split
  · exact ⟨rfl, rfl, rfl, rfl, rfl, rfl⟩
  · split <;> exact ⟨rfl, rfl, rfl, rfl, rfl, rfl⟩

theorem splitSource_ok {f f1 : FileLine} {ec : Int} (h : splitSource f ec = .ok f1) :
    ∃ c : Nat, ec = c ∧ c ≤ f.main_txt.length ∧
      f1 = ({ f with right_space := if f.right_txt = [] then f.right_space else blanks (f.right_space.length + (f.main_txt.length - c)), main_txt := f.main_txt.take c } : FileLine).makeUncontinued := by
  unfold splitSource at h
  rbind h with rs hrs
  split at h
  · rename_i hc
    refine ⟨ec.toNat, by omega, hc.2, ?_⟩
    injection h with h
    rw [← h]
    congr 2
    split at hrs
    · rename_i hr; injection hrs with hrs; rw [if_pos hr, hrs]
    · rename_i hr
      rw [if_neg hr]
      rw [if_neg (by omega)] at hrs
      unfold assignBlanks at hrs
      rw [if_neg (by omega)] at hrs
      injection hrs with hrs
      rw [← hrs]
      congr 1
      omega
  · simp at h

theorem splitSource_of {f : FileLine} {c : Nat} (h : c ≤ f.main_txt.length) :
    ∃ f1, splitSource f c = .ok f1 := by
  unfold splitSource
  by_cases hr : f.right_txt = []
  · rw [if_pos hr]
    simp only [Res.ok_bind]
    rw [if_pos ⟨by omega, by omega⟩]
    exact ⟨_, rfl⟩
  · rw [if_neg hr, if_neg (by omega)]
    unfold assignBlanks
    rw [if_neg (by omega)]
    simp only [Res.ok_bind]
    rw [if_pos ⟨by omega, by omega⟩]
    exact ⟨_, rfl⟩

/-- `set_leading_spaces` on a line that is not a comment or has no text. -/
theorem setLeading_main {f g : FileLine} {n : Int} {b : Bool}
    (hc : f.bits.comment = true → f.main_txt = []) (h : Ind.setLeading f n = .ok (g, b)) :
    g.main_txt = f.main_txt ∧ g.bits = f.bits ∧ g.linenum = f.linenum ∧ g.open_delim = f.open_delim ∧
    (f.left_txt = [] → g.right_txt = f.right_txt ∧ g.left_txt = []) := by
  have key : ∀ m : Nat, f.setLeadingSpaces m = .ok (g, b) → g.main_txt = f.main_txt ∧
      g.bits = f.bits ∧ g.linenum = f.linenum ∧ g.open_delim = f.open_delim ∧
      (f.left_txt = [] → g.right_txt = f.right_txt ∧ g.left_txt = []) := by
    intro m h
    cases hcom : f.bits.comment with
    | false =>
      have h0 := C11_text_kept f g m b hcom h
      obtain ⟨⟨h1, h2, h3, h4, h5, h6⟩, _⟩ := h0
      refine ⟨h2, h5, h1, h4, fun hl => ⟨h3, ?_⟩⟩
      unfold FileLine.setLeadingSpaces at h
      rw [if_neg (by simp [hcom])] at h
      split at h
      · rbind h with x hx
        split at h
        · simp at h; rw [← h.1]; exact hl
        · rename_i g0 o0
          rbind h with y hy
          simp at h
          obtain ⟨rfl, rfl⟩ := h
          have := (adjustRight_same hy).2.1
          rw [this]
          unfold FileLine.moveMain at hx
          rw [if_pos hl] at hx
          split at hx
          · simp at hx
          · simp at hx; rw [← hx.1]; exact hl
      · simp at h; rw [← h.1]; exact hl
    | true =>
      have hm := hc hcom
      unfold FileLine.setLeadingSpaces at h
      rw [if_pos hcom] at h
      unfold FileLine.setLeadingComment at h
      simp only [hm] at h
      split at h
      · rename_i pos hpos
        refine ⟨?_, ?_, ?_, ?_, ?_⟩
        rotate_left 4
        · intro hl; rw [hl] at hpos; simp [findChar] at hpos
        all_goals
          split at h
          · simp at h; rw [← h.1]; try simp [hm]
          · simp at h; rw [← h.1]; try simp [hm]
      · rw [show findChar '!' [] = none from rfl] at h
        simp at h
        rw [← h.1]
        exact ⟨rfl, rfl, rfl, rfl, fun hl => ⟨rfl, hl⟩⟩
  unfold Ind.setLeading at h
  split at h
  · exact key _ h
  · split at h
    · rename_i hcom
      have hm := hc hcom
      split at h
      · simp at h
      · rw [hm, show findChar '!' [] = none from rfl] at h
        simp at h
        rw [← h.1]
        exact ⟨rfl, rfl, rfl, rfl, fun hl => ⟨rfl, hl⟩⟩
    · split at h
      · simp at h
      · exact key _ h

theorem splitNew_ok {f f2 : FileLine} {bc left : Int} (hbc : 0 ≤ bc)
    (hc : f.bits.comment = true → f.main_txt = []) (h : splitNew f bc left = .ok f2) :
    f2.main_txt = f.main_txt.drop bc.toNat ∧ f2.left_txt = [] ∧ f2.bits = f.bits ∧
    f2.right_txt = (if f.bits.continued then ['&'] else []) ∧ f2.linenum = f.linenum ∧
    f2.open_delim = f.open_delim := by
  unfold splitNew at h
  rw [if_neg (by omega)] at h
  rbind h with g hg
  rbind h with r hr
  injection h with h
  subst h
  obtain ⟨r1, r2⟩ := r
  dsimp only
  split at hg
  · rename_i hcont
    rbind hg with rs hrs
    injection hg with hg
    subst hg
    obtain ⟨h1, h2, h3, h4, h5⟩ := setLeading_main (by
      intro h; dsimp only at h ⊢; rw [hc h]; simp) hr
    obtain ⟨h6, h7⟩ := h5 rfl
    exact ⟨h1, h7, h2, by rw [h6, if_pos hcont], h3, h4⟩
  · rename_i hcont
    injection hg with hg
    subst hg
    obtain ⟨h1, h2, h3, h4, h5⟩ := setLeading_main (by
      intro h; dsimp only at h ⊢; rw [hc h]; simp) hr
    obtain ⟨h6, h7⟩ := h5 rfl
    exact ⟨h1, h7, h2, by rw [h6, if_neg hcont], h3, h4⟩

/-- The lines behind the split line keep their texts. -/
theorem splitFollow_main {left : Int} {fs gs : List FileLine} (h : splitFollow left fs = .ok gs) :
    gs.map (·.main_txt) = fs.map (·.main_txt) ∧ gs.map (·.bits) = fs.map (·.bits) := by
  induction fs generalizing gs with
  | nil => simp [splitFollow] at h; subst h; exact ⟨rfl, rfl⟩
  | cons f fs ih =>
    unfold splitFollow at h
    split at h
    · rbind h with x hx
      rbind h with y hy
      injection h with h
      subst h
      obtain ⟨h1, h2⟩ := ih hy
      have hxm : x.main_txt = f.main_txt ∧ x.bits = f.bits := by
        split at hx
        · rbind hx with z hz
          injection hx with hx; subst hx; exact ⟨rfl, rfl⟩
        · injection hx with hx; subst hx; exact ⟨rfl, rfl⟩
      simp [h1, h2, hxm.1, hxm.2]
    · rename_i htriv
      rbind h with r hr
      injection h with h
      subst h
      obtain ⟨r1, r2⟩ := r
      obtain ⟨h1, h2, _⟩ := setLeading_main (f := { f with left_txt := [] }) (by
        intro hc; simp [FileLine.isTrivial] at htriv; dsimp only at hc; rw [htriv.1] at hc; cases hc) hr
      simp only [List.map_cons]
      rw [h1, h2]
      exact ⟨rfl, rfl⟩

end FLPR
