import Verif.Format.Lemmas
/-!
# C71: the filters of `flpr-format` (apps/flpr_format_base.cc)
-/

namespace FLPR
namespace Spec

/-- What is asked of a line: its statements are up to date; if it is a statement, its layout has no blank lines and no
other kinds of lines; no token begins with an ampersand, and a semicolon has a text. -/
structure Ready (l : LLine) : Prop where
  now : l = l.initStmts
  layout : l.hasFortran = true → StatementLayout l.layout
  amp : ∀ t ∈ l.frags, t.text.head? ≠ some '&'
  semi : ∀ t ∈ l.frags, t.token = Tag.TK_SEMICOLON → t.text ≠ []

/-- `g` is the line `l` written again with the tokens `s` only: its text is that of these tokens, with blanks between
them; it has the label and the comments of `l`. -/
structure LineOf (l : LLine) (s : List Tok) (g : LLine) : Prop where
  frags : g.frags = s
  now : g = g.initStmts
  label : g.label = l.label
  text : Spaced (s.map Tok.text) (layoutText g.layout)
  continued : s ≠ [] → ∃ init last, fortranLines g.layout = init ++ [last] ∧ (∀ f ∈ init, f.bits.continued = true) ∧ last.bits.continued = false
  comments : (l.layout.filter (·.bits.comment)).Sublist g.layout
  trailing : trailings g.layout = trailings l.layout

/-- The statements of a line, empty ones left out. -/
def statementsOf (ts : List Tok) : List (List Tok) := (segments ts).filter (fun s => !s.isEmpty)

/-- There is a semicolon too many, or only semicolons. -/
def HasEmpty (ts : List Tok) : Prop := (∃ t ∈ ts, t.token = Tag.TK_SEMICOLON) ∧ [] ∈ segments ts

/-- What becomes of a line: it stays when it is no statement or just one statement; of more than one statement each
gets its own line; of one statement and empty ones, or of empty ones only, one line is left. -/
def SplitTo (l : LLine) (g : List LLine) : Prop :=
  (l.hasFortran = false ∧ g = [l]) ∨
  (l.hasFortran = true ∧ (statementsOf l.frags).length < 2 ∧ ¬ HasEmpty l.frags ∧ g = [l]) ∨
  (l.hasFortran = true ∧ (statementsOf l.frags).length < 2 ∧ HasEmpty l.frags ∧ ∃ l', g = [l'] ∧ LineOf l (statementsOf l.frags).flatten l') ∨
  (l.hasFortran = true ∧ 2 ≤ (statementsOf l.frags).length ∧ List.Forall₂ (LineOf l) (statementsOf l.frags) g)

/-- The statement begins before column 75, and all spaces between tokens are known. -/
def Roomy (l : LLine) : Prop :=
  l.hasFortran = true → (∀ f, l.layout.head? = some f → leftWidth f < 74) ∧ ∀ s ∈ statementsOf l.frags, ∀ t ∈ s.tail, t.pre ≠ none

/-- A line that is changed. -/
def Changes (l : LLine) : Prop := l.hasFortran = true ∧ (2 ≤ (statementsOf l.frags).length ∨ HasEmpty l.frags)

end Spec

namespace FlprFormat
open Spec

theorem textFromFrags_now {l l' : LLine} (hl : StatementLayout l.layout) (h : l.textFromFrags = .ok l') : l' = l'.initStmts := by
  obtain ⟨⟨f, fs, he, hf⟩, _⟩ := hl
  unfold LLine.textFromFrags at h
  simp only [he, hf, Bool.true_eq_false, if_false] at h
  rbind h with m hm
  rbind h with s hs
  split at h <;> split at h <;> (obtain rfl := Except.ok.inj h; rfl)

theorem lineOf_text {l : LLine} {s : List Tok} {g : LLine} (hl : StatementLayout l.layout) (ha : ∀ t ∈ s, t.text.head? ≠ some '&')
    (h : ({ l with frags := s } : LLine).textFromFrags = .ok g) : LineOf l s g := by
  obtain ⟨h1, h2, h3, h4, h5, h6, h7⟩ := C18_text_partial { l with frags := s } g hl ha h
  exact ⟨h1, textFromFrags_now (l := { l with frags := s }) hl h, h2, h4, h5, h6, h7⟩

theorem stmts_length {l : LLine} (h : l = l.initStmts) : l.stmts.length = (statementsOf l.frags).length := by
  have := congrArg List.length (stmts_segments l h)
  rw [List.length_map] at this
  exact this

theorem empty_of {l : LLine} (h : l = l.initStmts) {e : Bool} (he : l.hasEmptyStatements = .ok e) : e = true ↔ HasEmpty l.frags := by
  obtain ⟨b, h1, h2⟩ := C16_has_empty l
  rw [← h, he] at h1
  rw [Except.ok.inj h1]
  exact h2

theorem removed {l l' : LLine} {b : Bool} (hr : Ready l) (hf : l.hasFortran = true) (h1 : (statementsOf l.frags).length < 2)
    (he : HasEmpty l.frags) (h : l.removeEmpty = .ok (l', b)) : LineOf l (statementsOf l.frags).flatten l' ∧ b = true := by
  obtain ⟨a1, a2, a3⟩ := removeEmptyFrags_eq l (congrArg LLine.stmts hr.now) hr.semi
  generalize collapse false (popSemis (l.frags.dropWhile Tok.isSemi)) = fr at a1 a2 a3
  have hne : fr ≠ l.frags := by
    rintro rfl
    rcases a3 with a3 | a3
    · obtain ⟨⟨t, ht, _⟩, _⟩ := he
      rw [a3] at ht
      simp at ht
    · exact a3 he.2
  have hfr : fr = (statementsOf l.frags).flatten := by
    have := only_segment a3 (by rw [a2]; exact h1)
    rw [a2] at this
    exact this
  rw [LLine.removeEmpty, a1, Res.ok_bind] at h
  simp only [hne, ne_eq, not_false_iff, decide_true, if_true] at h
  rbind h with l2 hl2
  simp only [Except.ok.injEq, Prod.mk.injEq] at h
  obtain ⟨rfl, rfl⟩ := h
  refine ⟨?_, rfl⟩
  rw [← hfr]
  refine lineOf_text (hr.layout hf) ?_ hl2
  intro t ht
  rw [hfr] at ht
  obtain ⟨s, hs, hts⟩ := List.mem_flatten.mp ht
  obtain ⟨r, _, hr2⟩ := List.mem_map.mp (show s ∈ l.stmts.map (slice l.frags) by rw [stmts_segments l hr.now]; exact hs)
  rw [← hr2, slice] at hts
  exact hr.amp t (List.mem_of_mem_drop (List.mem_of_mem_take hts))

/-- The line from its second statement on is ready too. -/
theorem behind_ready {l : LLine} (hr : Ready l) (k : Nat) : Ready (({ l with frags := l.frags.drop k } : LLine).initStmts) where
  now := rfl
  layout := hr.layout
  amp := fun t ht => hr.amp t (List.mem_of_mem_drop ht)
  semi := fun t ht => hr.semi t (List.mem_of_mem_drop ht)

theorem lineOf_initStmts {l g : LLine} {s : List Tok} (h : LineOf l s g) : LineOf l s g.initStmts := by
  rw [← h.now]; exact h

theorem option_map_some {α β : Type} {o : Option α} {f : α → β} {y : β} (h : (.ok (o.map f) : Res (Option β)) = .ok (some y)) :
    ∃ x, o = some x ∧ f x = y := Option.map_eq_some_iff.mp (Except.ok.inj h)

theorem split_go (n : Nat) : (∀ lines out b, (∀ l ∈ lines, Ready l) → splitGo n false lines = .ok (some (out, b)) →
      ∃ groups, out = groups.flatten ∧ List.Forall₂ SplitTo lines groups ∧ (b = true ↔ ∃ l ∈ lines, Changes l)) ∧
    (∀ l ls out b, Ready l → (∀ l ∈ ls, Ready l) → l.hasFortran = true → (statementsOf l.frags) ≠ [] → (∀ t, l.frags.head? = some t → t.token ≠ Tag.TK_SEMICOLON) →
      splitGo n true (l :: ls) = .ok (some (out, b)) →
      ∃ g groups, out = g ++ groups.flatten ∧ List.Forall₂ (LineOf l) (statementsOf l.frags) g ∧ List.Forall₂ SplitTo ls groups ∧
        (b = true ↔ 2 ≤ (statementsOf l.frags).length ∨ ∃ l ∈ ls, Changes l)) := by
  induction n with
  | zero => exact ⟨fun _ _ _ _ h => by simp [splitGo] at h, fun _ _ _ _ _ _ _ _ _ h => by simp [splitGo] at h⟩
  | succ n ih =>
    obtain ⟨ihf, iht⟩ := ih
    -- a statement is taken off
    have step : ∀ l ls out b c r0 r1 rs, Ready l → (∀ l ∈ ls, Ready l) → l.hasFortran = true → l.stmts = r0 :: r1 :: rs →
        splitGo (n + 1) c (l :: ls) = .ok (some (out, b)) →
        ∃ g groups, out = g ++ groups.flatten ∧ List.Forall₂ (LineOf l) (statementsOf l.frags) g ∧ List.Forall₂ SplitTo ls groups ∧ b = true := by
      intro l ls out b c r0 r1 rs hr hrs hf hst h
      rw [splitGo, if_neg (by simp [hf]), hst] at h
      simp only at h
      rbind h with new hnew
      rbind h with r hgo
      obtain ⟨⟨o, b'⟩, rfl, hx⟩ := option_map_some h
      simp only [Prod.mk.injEq] at hx
      obtain ⟨rfl, rfl⟩ := hx
      have hseg := stmts_segments l hr.now
      obtain ⟨k1, k2⟩ := stmts_behind l hr.now r0 r1 rs hst
      have hm : MaximalRun l.frags r1 := by
        have := (C16_ranges l).2 r1
        rw [← hr.now] at this
        exact this.mp (by rw [hst]; simp)
      obtain ⟨g, groups, g1, g2, g3, _⟩ := iht _ ls o b' (behind_ready hr r1.1) hrs hf
        (by
          intro e
          have : realSegments (l.frags.drop r1.1) = [] := e
          rw [k1] at this
          simp at this)
        (by
          intro t ht
          have ht : (l.frags.drop r1.1).head? = some t := ht
          rw [List.head?_drop] at ht
          exact hm.2.2.1 r1.1 t (le_refl _) hm.1 ht) hgo
      refine ⟨new.initStmts :: g, groups, by rw [g1]; rfl, ?_, g3, rfl⟩
      have e : statementsOf l.frags = slice l.frags r0 :: statementsOf (l.frags.drop r1.1) := by
        have k1' : statementsOf (l.frags.drop r1.1) = (r1 :: rs).map (slice l.frags) := k1
        have hseg' : l.stmts.map (slice l.frags) = statementsOf l.frags := hseg
        rw [k1', ← hseg', hst]
        rfl
      rw [e]
      refine .cons ?_ (g2.imp (fun s g h => ⟨h.frags, h.now, h.label, h.text, h.continued, h.comments, h.trailing⟩))
      rw [first_slice, ← hst] at hnew
      refine lineOf_initStmts (lineOf_text (hr.layout hf) ?_ hnew)
      intro t ht
      rw [slice] at ht
      exact hr.amp t (List.mem_of_mem_drop (List.mem_of_mem_take ht))
    refine ⟨?_, ?_⟩
    · intro lines out b hr h
      cases lines with
      | nil =>
        rw [splitGo] at h
        simp only [Except.ok.injEq, Option.some.injEq, Prod.mk.injEq] at h
        obtain ⟨rfl, rfl⟩ := h
        exact ⟨[], rfl, .nil, by simp⟩
      | cons l ls =>
        have hl := hr l (by simp)
        have hls : ∀ l ∈ ls, Ready l := fun l hl => hr l (by simp [hl])
        by_cases hf : l.hasFortran = true
        · have hlen := stmts_length hl.now
          match hst : l.stmts with
          | r0 :: r1 :: rs =>
            obtain ⟨g, groups, g1, g2, g3, g4⟩ := step l ls out b false r0 r1 rs hl hls hf hst h
            have h2 : 2 ≤ (statementsOf l.frags).length := by rw [← hlen, hst]; simp
            refine ⟨g :: groups, g1, .cons (.inr (.inr (.inr ⟨hf, h2, g2⟩))) g3, ?_⟩
            rw [g4]
            simp only [true_iff]
            exact ⟨l, by simp, hf, .inl h2⟩
          | [] | [r0] =>
            all_goals
              have h2 : (statementsOf l.frags).length < 2 := by rw [← hlen, hst]; simp
              rw [splitGo, if_neg (by simp [hf]), hst] at h
              simp only [Bool.false_eq_true, if_false] at h
              rbind h with e he
              rbind h with c hc
              rbind h with r hgo
              obtain ⟨⟨o, b'⟩, rfl, hx⟩ := option_map_some h
              simp only [Prod.mk.injEq] at hx
              obtain ⟨rfl, rfl⟩ := hx
              obtain ⟨groups, g1, g2, g3⟩ := ihf ls o b' hls hgo
              have hee := empty_of hl.now he
              by_cases hem : e = true
              · rw [if_pos hem] at hc
                obtain ⟨c1, c2⟩ := c
                obtain ⟨k1, k2⟩ := removed hl hf h2 (hee.mp hem) hc
                refine ⟨[c1] :: groups, by rw [g1]; rfl, .cons (.inr (.inr (.inl ⟨hf, h2, hee.mp hem, c1, rfl, k1⟩))) g2, ?_⟩
                simp only [k2, Bool.true_or, true_iff]
                exact ⟨l, by simp, hf, .inr (hee.mp hem)⟩
              · rw [if_neg hem] at hc
                obtain rfl := Except.ok.inj hc
                refine ⟨[l] :: groups, by rw [g1]; rfl, .cons (.inr (.inl ⟨hf, h2, fun hh => hem (hee.mpr hh), rfl⟩)) g2, ?_⟩
                simp only [Bool.false_or, g3, List.mem_cons, exists_eq_or_imp]
                refine ⟨.inr, fun hh => hh.resolve_left ?_⟩
                rintro ⟨_, hc | hc⟩
                · omega
                · exact hem (hee.mpr hc)
        · rw [splitGo, if_pos (by simpa using hf)] at h
          rbind h with r hgo
          obtain ⟨⟨o, b'⟩, rfl, hx⟩ := option_map_some h
          simp only [Prod.mk.injEq] at hx
          obtain ⟨rfl, rfl⟩ := hx
          obtain ⟨groups, g1, g2, g3⟩ := ihf ls o b' hls hgo
          refine ⟨[l] :: groups, by rw [g1]; rfl, .cons (.inl ⟨by simpa using hf, rfl⟩) g2, ?_⟩
          simp only [g3, List.mem_cons, exists_eq_or_imp]
          refine ⟨.inr, fun hh => hh.resolve_left ?_⟩
          rintro ⟨hc, _⟩
          exact hf hc
    · intro l ls out b hr hrs hf hne hhd h
      have hlen := stmts_length hr.now
      match hst : l.stmts with
      | r0 :: r1 :: rs =>
        obtain ⟨g, groups, g1, g2, g3, g4⟩ := step l ls out b true r0 r1 rs hr hrs hf hst h
        refine ⟨g, groups, g1, g2, g3, ?_⟩
        rw [g4]
        simp only [true_iff]
        exact .inl (by rw [← hlen, hst]; simp)
      | [] =>
        rw [hst] at hlen
        exact absurd (List.length_eq_zero_iff.mp hlen.symm) hne
      | [r0] =>
        have h1 : (statementsOf l.frags).length = 1 := by rw [← hlen, hst]; rfl
        rw [splitGo, if_neg (by simp [hf]), hst] at h
        simp only [if_true] at h
        rbind h with l' hl'
        rbind h with r hgo
        obtain ⟨⟨o, b'⟩, rfl, hx⟩ := option_map_some h
        simp only [Prod.mk.injEq] at hx
        obtain ⟨rfl, rfl⟩ := hx
        obtain ⟨groups, g1, g2, g3⟩ := ihf ls o b' hrs hgo
        have hb : r0.1 = 0 := by
          have hm : MaximalRun l.frags r0 := by
            have := (C16_ranges l).2 r0
            rw [← hr.now] at this
            exact this.mp (by rw [hst]; simp)
          rcases hm.2.2.2.1 with h0 | ⟨t, ht, hsm⟩
          · exact h0
          · exfalso
            -- the first token is in no statement, so it is a semicolon
            have hpos : 0 < l.frags.length := by have := (List.getElem?_eq_some_iff.mp ht).1; omega
            obtain ⟨c1, _⟩ := C16_cover l 0 l.frags[0] (List.getElem?_eq_getElem hpos)
            obtain ⟨r, hr1, hr2, hr3, _⟩ := c1 (hhd _ (by rw [List.head?_eq_getElem?, List.getElem?_eq_getElem hpos]))
            rw [← hr.now, hst, List.mem_singleton] at hr1
            subst hr1
            have : r.1 = 0 := by omega
            rw [this] at ht
            exact hhd t (by rw [List.head?_eq_getElem?]; exact ht) hsm
        have e : statementsOf l.frags = [l.frags.take r0.2] := by
          have : l.stmts.map (slice l.frags) = statementsOf l.frags := stmts_segments l hr.now
          rw [← this, hst]
          simp [slice, hb]
        refine ⟨[l'], groups, by rw [g1]; rfl, ?_, g2, ?_⟩
        · rw [e]
          rw [← hst] at hl'
          exact .cons (lineOf_text (hr.layout hf) (fun t ht => hr.amp t (List.mem_of_mem_take ht)) hl') .nil
        · rw [g3]
          exact ⟨.inr, fun hh => hh.resolve_left (by omega)⟩

/-- **C71** When `split_compound_stmts` returns, the lines are the old ones, each one kept or replaced by lines that have
its statements, one on each, with the same tokens in the same order; the value returned tells whether a line
changed. -/
theorem C71_split_partial (lines out : List LLine) (b : Bool) (hr : ∀ l ∈ lines, Ready l) (h : splitCompound lines = .ok (some (out, b))) :
    ∃ groups, out = groups.flatten ∧ List.Forall₂ SplitTo lines groups ∧ (b = true ↔ ∃ l ∈ lines, Changes l) :=
  (split_go _).1 lines out b hr h

theorem text_returns {l : LLine} (hr : Ready l) (hf : l.hasFortran = true) (hw : Roomy l) {s : List Tok}
    (hs : s = [] ∨ s ∈ statementsOf l.frags) : ∃ l', ({ l with frags := s } : LLine).textFromFrags = .ok l' := by
  have hsub : ∀ t ∈ s, t ∈ l.frags := by
    intro t ht
    rcases hs with rfl | hs
    · simp at ht
    · obtain ⟨r, _, hr2⟩ := List.mem_map.mp (show s ∈ l.stmts.map (slice l.frags) by rw [stmts_segments l hr.now]; exact hs)
      rw [← hr2, slice] at ht
      exact List.mem_of_mem_drop (List.mem_of_mem_take ht)
  obtain ⟨w1, w2⟩ := hw hf
  rcases C18_outcome { l with frags := s } (hr.layout hf) (fun t ht => hr.amp t (hsub t ht)) with h | ⟨_, f, h1, h2⟩ | ⟨_, t, h1, h2⟩
  · exact h
  · have := w1 f h1
    omega
  · rcases hs with rfl | hs
    · simp at h1
    · exact absurd h2 (w2 s hs t h1)

theorem remove_returns {l : LLine} (hr : Ready l) (hf : l.hasFortran = true) (hw : Roomy l) (h1 : (statementsOf l.frags).length < 2) :
    ∃ r, l.removeEmpty = .ok r := by
  obtain ⟨a1, a2, a3⟩ := removeEmptyFrags_eq l (congrArg LLine.stmts hr.now) hr.semi
  generalize collapse false (popSemis (l.frags.dropWhile Tok.isSemi)) = fr at a1 a2 a3
  have hfr : fr = (statementsOf l.frags).flatten := by
    have := only_segment a3 (by rw [a2]; exact h1)
    rw [a2] at this
    exact this
  rw [LLine.removeEmpty, a1, Res.ok_bind]
  split
  · obtain ⟨l', h⟩ := text_returns hr hf hw (s := fr) (by
      rw [hfr]
      match hm : statementsOf l.frags with
      | [] => exact .inl rfl
      | [s] => exact .inr (by simp)
      | s :: s' :: ss => rw [hm] at h1; simp only [List.length_cons] at h1; omega)
    exact ⟨(l', true), by
      show ({ l with frags := fr } : LLine).textFromFrags >>= _ = _
      rw [h, Res.ok_bind]⟩
  · exact ⟨_, rfl⟩

def need (lines : List LLine) : Nat := (lines.map (fun l => l.stmts.length + 1)).sum

theorem go_returns (n : Nat) : ∀ c lines, (∀ l ∈ lines, Ready l ∧ Roomy l) → need lines < n →
    (c = true → ∃ l ls, lines = l :: ls ∧ l.hasFortran = true ∧ l.stmts ≠ [] ∧ ∀ t, l.frags.head? = some t → t.token ≠ Tag.TK_SEMICOLON) →
    ∃ r, splitGo n c lines = .ok (some r) := by
  induction n with
  | zero => intro c lines _ h; omega
  | succ n ih =>
    intro c lines hr hn hc
    cases lines with
    | nil => exact ⟨_, rfl⟩
    | cons l ls =>
      obtain ⟨hl, hw⟩ := hr l (by simp)
      have hls : ∀ l ∈ ls, Ready l ∧ Roomy l := fun l hl => hr l (by simp [hl])
      have hneed : need (l :: ls) = l.stmts.length + 1 + need ls := by simp [need]
      by_cases hf : l.hasFortran = true
      · have hseg : l.stmts.map (slice l.frags) = statementsOf l.frags := stmts_segments l hl.now
        rw [splitGo, if_neg (by simp [hf])]
        match hst : l.stmts with
        | r0 :: r1 :: rs =>
          obtain ⟨new, h1⟩ := text_returns hl hf hw (s := slice l.frags r0) (.inr (by rw [← hseg, hst]; simp))
          obtain ⟨k1, k2⟩ := stmts_behind l hl.now r0 r1 rs hst
          have hm : MaximalRun l.frags r1 := by
            have := (C16_ranges l).2 r1
            rw [← hl.now] at this
            exact this.mp (by rw [hst]; simp)
          obtain ⟨r, hgo⟩ := ih true (({ l with frags := l.frags.drop r1.1 } : LLine).initStmts :: ls)
            (by
              intro x hx
              rcases List.mem_cons.mp hx with rfl | hx
              · refine ⟨behind_ready hl r1.1, fun _ => ⟨(hw hf).1, ?_⟩⟩
                intro s hs t ht
                have hs : s ∈ realSegments (l.frags.drop r1.1) := hs
                rw [k1] at hs
                refine (hw hf).2 s ?_ t ht
                rw [← hseg, hst, List.map_cons]
                exact List.mem_cons_of_mem _ hs
              · exact hls x hx)
            (by
              have e : need (({ l with frags := l.frags.drop r1.1 } : LLine).initStmts :: ls) = rs.length + 1 + 1 + need ls := by
                rw [← k2]
                simp [need]
              rw [hneed, hst] at hn
              simp only [List.length_cons] at hn
              omega)
            (fun _ => ⟨_, ls, rfl, hf, by
              intro e
              rw [e] at k2
              simp at k2, by
              intro t ht
              have ht : (l.frags.drop r1.1).head? = some t := ht
              rw [List.head?_drop] at ht
              exact hm.2.2.1 r1.1 t (le_refl _) hm.1 ht⟩)
          refine ⟨(new.initStmts :: r.1, true), ?_⟩
          simp only
          rw [first_slice, ← hst, h1, Res.ok_bind, hst] at *
          rw [← hst, hgo, Res.ok_bind]
          rfl
        | [] | [r0] =>
          all_goals
            have h2 : (statementsOf l.frags).length < 2 := by rw [← hseg, List.length_map, hst]; simp
            obtain ⟨r, hgo⟩ := ih false ls hls (by rw [hneed, hst] at hn; simp at hn; omega) (by simp)
            cases c with
            | true =>
              obtain ⟨l0, ls0, e, _, hne, hhd⟩ := hc rfl
              obtain ⟨rfl, rfl⟩ := List.cons.inj e
              first
              | exact absurd hst hne
              | (have hb : r0.1 = 0 := by
                  have hm : MaximalRun l.frags r0 := by
                    have := (C16_ranges l).2 r0
                    rw [← hl.now] at this
                    exact this.mp (by rw [hst]; simp)
                  rcases hm.2.2.2.1 with h0 | ⟨t, ht, hsm⟩
                  · exact h0
                  · exfalso
                    have hpos : 0 < l.frags.length := by have := (List.getElem?_eq_some_iff.mp ht).1; omega
                    obtain ⟨c1, _⟩ := C16_cover l 0 l.frags[0] (List.getElem?_eq_getElem hpos)
                    obtain ⟨r, hr1, hr2, hr3, _⟩ := c1 (hhd _ (by rw [List.head?_eq_getElem?, List.getElem?_eq_getElem hpos]))
                    rw [← hl.now, hst, List.mem_singleton] at hr1
                    subst hr1
                    have : r.1 = 0 := by omega
                    rw [this] at ht
                    exact hhd t (by rw [List.head?_eq_getElem?]; exact ht) hsm
                 obtain ⟨l', h1⟩ := text_returns hl hf hw (s := l.frags.take r0.2) (.inr (by rw [← hseg, hst]; simp [slice, hb]))
                 refine ⟨(l' :: r.1, r.2), ?_⟩
                 simp only [if_true]
                 rw [← hst, h1, Res.ok_bind, hgo, Res.ok_bind]
                 rfl)
            | false =>
              obtain ⟨e, he, _⟩ := C16_has_empty l
              rw [← hl.now] at he
              simp only [Bool.false_eq_true, if_false]
              rw [he, Res.ok_bind]
              by_cases hem : e = true
              · obtain ⟨q, hq⟩ := remove_returns hl hf hw h2
                refine ⟨(q.1 :: r.1, q.2 || r.2), ?_⟩
                rw [if_pos hem, hq, Res.ok_bind, hgo, Res.ok_bind]
                rfl
              · refine ⟨(l :: r.1, false || r.2), ?_⟩
                rw [if_neg hem, Res.ok_bind, hgo, Res.ok_bind]
                rfl
      · rw [splitGo, if_pos (by simpa using hf)]
        obtain ⟨r, hgo⟩ := ih c ls hls (by omega) (by
          intro h
          obtain ⟨l0, ls0, e, h0, _⟩ := hc h
          rw [(List.cons.inj e).1] at hf
          exact absurd h0 hf)
        exact ⟨(l :: r.1, r.2), by rw [hgo, Res.ok_bind]; rfl⟩

/-- **C71** `split_compound_stmts` returns when every statement begins in time and has its spaces. -/
theorem C71_split_returns (lines : List LLine) (hr : ∀ l ∈ lines, Ready l) (hw : ∀ l ∈ lines, Roomy l) :
    ∃ out b, splitCompound lines = .ok (some (out, b)) := by
  obtain ⟨r, h⟩ := go_returns (splitFuel lines) false lines (fun l hl => ⟨hr l hl, hw l hl⟩) (by rw [need, splitFuel]; omega) (by simp)
  exact ⟨r.1, r.2, h⟩

/-- **C71** Every statement of a labelled line with more than one statement gets the label. -/
theorem C71_violation_labels (lines out : List LLine) (b : Bool) (hr : ∀ l ∈ lines, Ready l) (h : splitCompound lines = .ok (some (out, b)))
    (l : LLine) (hl : l ∈ lines) (hf : l.hasFortran = true) (h2 : 2 ≤ (statementsOf l.frags).length) :
    ∃ A g B, out = A ++ g ++ B ∧ g.length = (statementsOf l.frags).length ∧ ∀ l' ∈ g, l'.label = l.label := by
  obtain ⟨groups, rfl, h3, _⟩ := C71_split_partial lines out b hr h
  obtain ⟨i, hi, he⟩ := List.mem_iff_getElem.mp hl
  obtain ⟨hlen, hall⟩ := List.forall₂_iff_get.mp h3
  have hs := hall i hi (by omega)
  simp only [List.get_eq_getElem, he] at hs
  refine ⟨(groups.take i).flatten, groups[i]'(by omega), (groups.drop (i + 1)).flatten, ?_, ?_, ?_⟩
  · have e : groups = groups.take i ++ groups[i]'(by omega) :: groups.drop (i + 1) := by
      rw [← List.drop_eq_getElem_cons (by omega), List.take_append_drop]
    have e2 := congrArg List.flatten e
    rw [List.flatten_append, List.flatten_cons, ← List.append_assoc] at e2
    exact e2
  all_goals
    rcases hs with ⟨h, _⟩ | ⟨_, h, _⟩ | ⟨_, h, _⟩ | ⟨_, _, h⟩
    · rw [hf] at h; cases h
    · omega
    · omega
  · exact h.length_eq.symm
  · intro l' hl'
    obtain ⟨j, hj, hj'⟩ := List.mem_iff_getElem.mp hl'
    have := (List.forall₂_iff_get.mp h).2 j (by rw [h.length_eq]; exact hj) hj
    rw [← hj']
    exact this.label

theorem segments_flat {s : List Tok} (h : ∀ t ∈ s, t.token ≠ Tag.TK_SEMICOLON) : segments s = [s] := by
  induction s with
  | nil => rfl
  | cons t s ih =>
    rw [segments, if_neg (h t (by simp)), ih (fun u hu => h u (by simp [hu]))]

theorem statements_self {ts s : List Tok} (h : s ∈ statementsOf ts) : statementsOf s = [s] ∧ ¬ HasEmpty s := by
  obtain ⟨h1, h2⟩ := List.mem_filter.mp h
  have hn := segs_noSemi ts s h1
  refine ⟨?_, ?_⟩
  · rw [statementsOf, segments_flat hn]
    simpa using h2
  · rintro ⟨⟨t, ht, h3⟩, _⟩
    exact hn t ht h3

theorem splitTo_statements {l : LLine} {g : List LLine} (h : SplitTo l g) :
    g.flatMap (fun l' => statementsOf l'.frags) = statementsOf l.frags ∧
    (l.hasFortran = true → ∀ l' ∈ g, (statementsOf l'.frags).length < 2 ∧ ¬ HasEmpty l'.frags) := by
  rcases h with ⟨h1, rfl⟩ | ⟨h1, h2, h3, rfl⟩ | ⟨h1, h2, h3, l', rfl, h4⟩ | ⟨h1, h2, h3⟩
  · exact ⟨by simp, fun h => by rw [h1] at h; cases h⟩
  · refine ⟨by simp, fun _ l' hl' => ?_⟩
    rw [List.mem_singleton.mp hl']
    exact ⟨h2, h3⟩
  · have key : statementsOf (statementsOf l.frags).flatten = statementsOf l.frags ∧ ¬ HasEmpty (statementsOf l.frags).flatten := by
      match hm : statementsOf l.frags with
      | [] => exact ⟨rfl, fun h => by obtain ⟨⟨t, ht, _⟩, _⟩ := h; simp at ht⟩
      | [s] =>
        have := statements_self (ts := l.frags) (s := s) (by rw [hm]; simp)
        simpa using this
      | s :: s' :: ss =>
        rw [hm] at h2
        simp only [List.length_cons] at h2
        omega
    refine ⟨by simp [h4.frags, key.1], fun _ x hx => ?_⟩
    rw [List.mem_singleton.mp hx, h4.frags, key.1]
    exact ⟨h2, key.2⟩
  · have key : ∀ (ss : List (List Tok)) (gs : List LLine), (∀ s ∈ ss, s ∈ statementsOf l.frags) → List.Forall₂ (LineOf l) ss gs →
        gs.flatMap (fun l' => statementsOf l'.frags) = ss ∧ ∀ l' ∈ gs, (statementsOf l'.frags).length < 2 ∧ ¬ HasEmpty l'.frags := by
      intro ss gs hs hf
      induction hf with
      | nil => exact ⟨rfl, by simp⟩
      | cons hh _ ih =>
        rename_i a b as bs _
        obtain ⟨i1, i2⟩ := ih (fun s hs' => hs s (by simp [hs']))
        obtain ⟨k1, k2⟩ := statements_self (hs a (by simp))
        refine ⟨by rw [List.flatMap_cons, hh.frags, k1, i1]; rfl, ?_⟩
        intro l' hl'
        rcases List.mem_cons.mp hl' with rfl | hl'
        · rw [hh.frags, k1]
          exact ⟨by simp, k2⟩
        · exact i2 l' hl'
    obtain ⟨k1, k2⟩ := key _ g (fun _ h => h) h3
    exact ⟨k1, fun _ => k2⟩

/-- **C71** The statements of the file are the same, token by token, and no statement shares its line. -/
theorem C71_statements_partial (lines out : List LLine) (b : Bool) (hr : ∀ l ∈ lines, Ready l) (h : splitCompound lines = .ok (some (out, b))) :
    out.flatMap (fun l => statementsOf l.frags) = lines.flatMap (fun l => statementsOf l.frags) ∧
    (∀ l ∈ out, l ∈ lines ∧ l.hasFortran = false ∨ (statementsOf l.frags).length < 2 ∧ ¬ HasEmpty l.frags) ∧ (b = false → out = lines) := by
  obtain ⟨groups, rfl, h3, hb⟩ := C71_split_partial lines out b hr h
  clear h hr
  have hc : b = false → ∀ l ∈ lines, ¬ Changes l := by
    intro e l hl hch
    rw [hb.mpr ⟨l, hl, hch⟩] at e
    cases e
  clear hb
  induction h3 with
  | nil => exact ⟨rfl, by simp, fun _ => rfl⟩
  | cons hs _ ih =>
    rename_i l g ls gs _
    obtain ⟨i1, i2, i3⟩ := ih (fun e x hx => hc e x (by simp [hx]))
    obtain ⟨k1, k2⟩ := splitTo_statements hs
    refine ⟨by rw [List.flatten_cons, List.flatMap_append, k1, i1]; rfl, ?_, ?_⟩
    · intro x hx
      rw [List.flatten_cons] at hx
      rcases List.mem_append.mp hx with hx | hx
      · cases hf : l.hasFortran with
        | true => exact .inr (k2 hf x hx)
        | false =>
          rcases hs with ⟨_, rfl⟩ | ⟨h, _⟩ | ⟨h, _⟩ | ⟨h, _⟩
          · rw [List.mem_singleton.mp hx]
            exact .inl ⟨by simp, hf⟩
          all_goals (rw [hf] at h; cases h)
      · rcases i2 x hx with ⟨h1, h2⟩ | h
        · exact .inl ⟨by simp [h1], h2⟩
        · exact .inr h
    · intro e
      have hch := hc e l (by simp)
      rw [List.flatten_cons, i3 e]
      rcases hs with ⟨_, rfl⟩ | ⟨_, _, _, rfl⟩ | ⟨h1, _, h3, _⟩ | ⟨h1, h2, _⟩
      · rfl
      · rfl
      · exact absurd ⟨h1, .inr h3⟩ hch
      · exact absurd ⟨h1, .inl h2⟩ hch

/-- **C71** `remove_empty_stmts` removes nothing: it asks for lines that are no statements, instead of the others. -/
theorem C71_violation_remove (lines : List LLine) (h : ∀ l ∈ lines, l = l.initStmts ∧ (l.hasFortran = false → l.frags = [])) :
    removeEmptyStmts lines = .ok (lines, false) := by
  induction lines with
  | nil => rfl
  | cons l ls ih =>
    have ih := ih (fun x hx => h x (by simp [hx]))
    obtain ⟨h1, h2⟩ := h l (by simp)
    rw [removeEmptyStmts]
    cases hf : l.hasFortran with
    | true => simp [Res.ok_bind, ih]
    | false =>
      have he : l.hasEmptyStatements = .ok false := by
        obtain ⟨e, he, hi⟩ := C16_has_empty l
        rw [← h1] at he
        rw [he]
        congr 1
        rw [Bool.eq_false_iff, Ne, hi, h2 hf]
        rintro ⟨⟨t, ht, _⟩, _⟩
        simp at ht
      simp [he, Res.ok_bind, ih]

/-- **C71** Unless the command line has the option `o` or `q`, whether the file is written depends on a member that was
never set. -/
theorem C71_violation_output (cs : List Char) (o : Options) (h : Options.start.letters cs = some o) (hc : 'o' ∉ cs ∧ 'q' ∉ cs) (changed : Bool) :
    o.writes changed = .error .ub := by
  have key : ∀ (cs : List Char) (a o : Options), a.doOutput = none → a.letters cs = some o → 'o' ∉ cs ∧ 'q' ∉ cs → o.doOutput = none := by
    intro cs
    induction cs with
    | nil =>
      intro a o ha h _
      obtain rfl := Option.some.inj h
      exact ha
    | cons c cs ih =>
      intro a o ha h hc
      rw [Options.letters] at h
      obtain ⟨a', h1, h2⟩ := Option.bind_eq_some_iff.mp h
      simp only [List.mem_cons, not_or] at hc
      refine ih a' o ?_ h2 ⟨hc.1.2, hc.2.2⟩
      have e1 : c ≠ 'o' := fun e => hc.1.1 e.symm
      have e2 : c ≠ 'q' := fun e => hc.2.1 e.symm
      unfold Options.letter at h1
      simp only [e1, e2, if_false] at h1
      split at h1
      · obtain rfl := Option.some.inj h1; exact ha
      split at h1
      · obtain rfl := Option.some.inj h1; exact ha
      split at h1
      · obtain rfl := Option.some.inj h1; exact ha
      split at h1
      · obtain rfl := Option.some.inj h1; exact ha
      split at h1
      · obtain rfl := Option.some.inj h1; exact ha
      split at h1
      · obtain rfl := Option.some.inj h1; exact ha
      · cases h1
  rw [Options.writes, key cs _ o rfl h hc]

example : ∃ o, Options.start.letters ['f', 'i'] = some o ∧ o.writes true = .error .ub ∧ o.splitCompound = true :=
  ⟨_, rfl, C71_violation_output ['f', 'i'] _ rfl (by decide) true, rfl⟩

/-- **C71** With the option `o` or `q` it is decided. -/
theorem C71_output (cs : List Char) (o : Options) (h : Options.start.letters cs = some o) (hc : 'o' ∈ cs ∨ 'q' ∈ cs) (changed : Bool) :
    ∃ b, o.writes changed = .ok b := by
  have keep : ∀ (cs : List Char) (a o : Options), a.doOutput ≠ none → a.letters cs = some o → o.doOutput ≠ none := by
    intro cs
    induction cs with
    | nil =>
      intro a o ha h
      obtain rfl := Option.some.inj h
      exact ha
    | cons c cs ih =>
      intro a o ha h
      rw [Options.letters] at h
      obtain ⟨a', h1, h2⟩ := Option.bind_eq_some_iff.mp h
      refine ih a' o ?_ h2
      unfold Options.letter at h1
      repeat' split at h1
      all_goals first
        | (obtain rfl := Option.some.inj h1; first | exact ha | simp)
        | cases h1
  have key : ∀ (cs : List Char) (a o : Options), a.letters cs = some o → 'o' ∈ cs ∨ 'q' ∈ cs → o.doOutput ≠ none := by
    intro cs
    induction cs with
    | nil => intro a o _ h; simp at h
    | cons c cs ih =>
      intro a o h hc
      rw [Options.letters] at h
      obtain ⟨a', h1, h2⟩ := Option.bind_eq_some_iff.mp h
      by_cases e : c = 'o' ∨ c = 'q'
      · refine keep cs a' o ?_ h2
        rcases e with rfl | rfl
        · obtain rfl : { a with doOutput := some true } = a' := Option.some.inj h1
          simp
        · obtain rfl : { a with quiet := true, verbose := false, doTiming := false, doOutput := some false } = a' := Option.some.inj h1
          simp
      · refine ih a' o h2 ?_
        simp only [List.mem_cons] at hc
        rcases hc with (hc | hc) | (hc | hc)
        · exact absurd (.inl hc.symm) e
        · exact .inl hc
        · exact absurd (.inr hc.symm) e
        · exact .inr hc
  rw [Options.writes]
  cases hd : o.doOutput with
  | none => exact absurd hd (key cs _ o h hc)
  | some v => exact ⟨_, rfl⟩

theorem letters_output : ∀ (cs : List Char) (a o : Options), a.letters cs = some o →
    o.quiet = (a.quiet || cs.contains 'q') ∧
    o.doOutput = match (cs.filter (fun c => c == 'o' || c == 'q')).getLast? with
      | some c => some (c == 'o')
      | none => a.doOutput
  | [], a, o, h => by
    obtain rfl := Option.some.inj h
    simp
  | c :: cs, a, o, h => by
    rw [Options.letters] at h
    obtain ⟨a', h1, h2⟩ := Option.bind_eq_some_iff.mp h
    obtain ⟨i1, i2⟩ := letters_output cs a' o h2
    rw [i1, i2]
    have hlast : ∀ (x : Char) (l : List Char), (x :: l).getLast? = some (l.getLast?.getD x) := by
      intro x l
      rw [List.getLast?_cons]
    by_cases ho : c = 'o'
    · subst ho
      obtain rfl : { a with doOutput := some true } = a' := Option.some.inj h1
      rw [show ('o' :: cs).filter (fun c => c == 'o' || c == 'q') = 'o' :: cs.filter (fun c => c == 'o' || c == 'q') from rfl, hlast]
      refine ⟨by simp, ?_⟩
      cases (cs.filter (fun c => c == 'o' || c == 'q')).getLast? <;> rfl
    · by_cases hq : c = 'q'
      · subst hq
        obtain rfl : { a with quiet := true, verbose := false, doTiming := false, doOutput := some false } = a' := Option.some.inj h1
        rw [show ('q' :: cs).filter (fun c => c == 'o' || c == 'q') = 'q' :: cs.filter (fun c => c == 'o' || c == 'q') from rfl, hlast]
        refine ⟨by simp, ?_⟩
        cases (cs.filter (fun c => c == 'o' || c == 'q')).getLast? <;> rfl
      · have hf : (c :: cs).filter (fun c => c == 'o' || c == 'q') = cs.filter (fun c => c == 'o' || c == 'q') := by
          rw [List.filter_cons, if_neg (by simp [ho, hq])]
        have hc : (c :: cs).contains 'q' = cs.contains 'q' := by
          rw [List.contains_cons]
          have : ('q' == c) = false := by simpa using fun h => hq h.symm
          rw [this, Bool.false_or]
        have ha : a'.quiet = a.quiet ∧ a'.doOutput = a.doOutput := by
          unfold Options.letter at h1
          repeat' split at h1
          all_goals first
            | (obtain rfl := Option.some.inj h1; exact ⟨rfl, rfl⟩)
            | exact absurd (by assumption) ho
            | exact absurd (by assumption) hq
            | exact absurd h1 (by simp)
        rw [hf, hc, ha.1, ha.2]
        exact ⟨rfl, rfl⟩

/-- **C71** With the option `o` or `q`, the file is written if the last of these options is `o`, or if it was changed and
there is no option `q`. -/
theorem C71_output_when (cs : List Char) (o : Options) (h : Options.start.letters cs = some o) (hc : 'o' ∈ cs ∨ 'q' ∈ cs) (changed : Bool) :
    ∃ b, o.writes changed = .ok b ∧
      (b = true ↔ (cs.filter (fun c => c == 'o' || c == 'q')).getLast? = some 'o' ∨ changed = true ∧ 'q' ∉ cs) := by
  obtain ⟨h1, h2⟩ := letters_output cs _ o h
  obtain ⟨b, hb⟩ := C71_output cs o h hc changed
  refine ⟨b, hb, ?_⟩
  rw [Options.writes] at hb
  cases hl : (cs.filter (fun c => c == 'o' || c == 'q')).getLast? with
  | none =>
    exfalso
    rw [List.getLast?_eq_none_iff, List.filter_eq_nil_iff] at hl
    rcases hc with hc | hc
    · exact hl _ hc rfl
    · exact hl _ hc rfl
  | some c =>
    rw [hl] at h2
    rw [h2, h1] at hb
    injection hb with hb
    rw [← hb]
    simp [Options.start]

/-- Options for which the change decides, and options for which it does not. -/
example : (∃ o, Options.start.letters ['i', 'o'] = some o ∧ o.writes false = .ok true) ∧
    (∃ o, Options.start.letters ['o', 'q'] = some o ∧ o.writes true = .ok false) := ⟨⟨_, rfl, rfl⟩, ⟨_, rfl, rfl⟩⟩

/-- **C71** The removal of empty statements reports a change if one of the lines it looks at was changed, and it leaves
the number of lines alone. -/
theorem C71_remove_reports (lines out : List LLine) (b : Bool) (h : removeEmptyStmts lines = .ok (out, b)) :
    out.length = lines.length ∧ (b = true ↔ ∃ l ∈ lines, l.hasFortran = false ∧ l.hasEmptyStatements = .ok true ∧
      ∃ l', l.removeEmpty = .ok (l', true)) := by
  induction lines generalizing out b with
  | nil =>
    cases h
    simp
  | cons l ls ih =>
    rw [removeEmptyStmts] at h
    rbind h with e he
    rbind h with r hr
    rbind h with rest hrest
    injection h with h
    injection h with h1 h2
    obtain ⟨i1, i2⟩ := ih _ _ hrest
    subst h1 h2
    refine ⟨by simp [i1], ?_⟩
    rw [Bool.or_eq_true, i2]
    constructor
    · rintro (h | ⟨x, hx, h⟩)
      · refine ⟨l, by simp, ?_⟩
        cases e with
        | false =>
          simp only [Bool.false_eq_true, if_false] at hr
          injection hr with hr
          rw [← hr] at h
          cases h
        | true =>
          simp only [if_true] at hr
          split at he
          · rename_i hf
            exact ⟨hf, he, r.1, by rw [hr, ← h]⟩
          · cases he
      · exact ⟨x, by simp [hx], h⟩
    · rintro ⟨x, hx, h3, h4, l', h5⟩
      rcases List.mem_cons.mp hx with rfl | hx
      · left
        rw [if_pos h3, h4] at he
        injection he with he
        subst he
        rw [if_pos rfl, h5] at hr
        injection hr with hr
        rw [← hr]
      · exact .inr ⟨x, hx, h3, h4, l', h5⟩

end FlprFormat
end FLPR
