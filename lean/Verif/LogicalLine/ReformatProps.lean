import Verif.LogicalLine.ReformatLemmas2
import Verif.LogicalLine.TokProps
/-!
# Reformatting a line from its tokens (C18)
-/

namespace FLPR
open Spec

namespace Spec

/-- A layout in which every line is a comment or holds Fortran text, the first one the latter. -/
def StatementLayout (fs : List FileLine) : Prop :=
  (∃ f rest, fs = f :: rest ∧ f.isFortran = true) ∧
  ∀ f ∈ fs, f.bits.blank = false ∧ (f.bits.comment = true ∨ f.isFortran = true)

/-- Tokens on one line: the first one, and each further one behind its recorded blanks. -/
def laidOut : List Tok → Str
  | [] => []
  | t :: ts => t.text ++ ts.flatMap (fun u => blanks (u.pre.getD 0).toNat ++ u.text)

end Spec
open Spec

/-- The state before the first token. -/
theorem start_inv (f : FileLine) (fs : List FileLine) (hf : f.isFortran = true)
    (hfs : ∀ g ∈ f :: fs, g.bits.blank = false ∧ (g.bits.comment = true ∨ g.isFortran = true))
    (m : Nat) (hm : 0 < m) :
    LoopInv (leftWidth f) ((f :: fs).filter (·.bits.comment)) (trailings (f :: fs)) []
      ⟨[], ({ f with main_txt := [] }).makeUncontinued, fs, true, m⟩ := by
  have hb := makeUncontinued_bits { f with main_txt := [] }
  have hfi := makeUncontinued_fields { f with main_txt := [] }
  have hcf : (({ f with main_txt := [] } : FileLine).makeUncontinued).isFortran = true := by
    rw [isFortran_continued false f _ hb]; exact hf
  refine ⟨⟨hcf, by simp, fun g hg => hfs g (by simp [hg]), ?_, ?_, ?_⟩, ?_, fun _ => ?_, hm, ?_⟩
  · simp [leftWidth, hfi.2.1, hfi.2.2]
  · simp [fortran_not_comment hcf, fortran_not_comment hf]
  · have e1 := trailings_append [({ f with main_txt := [] } : FileLine).makeUncontinued] fs
    have e2 := trailings_append [f] fs
    have e3 : trailing ({ f with main_txt := [] } : FileLine).makeUncontinued = trailing f :=
      makeUncontinued_trailing { f with main_txt := [] }
    simp only [List.nil_append, List.cons_append] at e1 e2 ⊢
    rw [e1, e2, trailings_single e3]
  · simp only [hb]
  · exact hfi.1
  · have : Fmt.lines ⟨[], ({ f with main_txt := [] }).makeUncontinued, fs, true, m⟩ = [[]] := by
      simp [Fmt.lines, fortranLines, hfi.1]
    rw [this]
    exact Spaced.nil

theorem makeUncontinued_width (f : FileLine) :
    leftWidth ({ f with main_txt := [] } : FileLine).makeUncontinued = leftWidth f := by
  simp [leftWidth, (makeUncontinued_fields { f with main_txt := [] }).2.1,
    (makeUncontinued_fields { f with main_txt := [] }).2.2]

theorem uncontinued_fortran {f : FileLine} (hf : f.isFortran = true) :
    (({ f with main_txt := [] } : FileLine).makeUncontinued).isFortran = true := by
  rw [isFortran_continued false f _ (makeUncontinued_bits { f with main_txt := [] })]; exact hf

/-- The last step: what is done with the lines left over. -/
theorem finish_layout (kept left : List FileLine)
    (hk : ∀ f ∈ kept, f.bits.blank = false) (hl : ∀ f ∈ left, f.bits.blank = false) :
    ∀ lay, lay = (if left.any blanked then
        (kept ++ left.map leftover).filter (fun f => !f.bits.blank)
      else kept ++ left.map leftover) →
      fortranLines lay = fortranLines kept ∧ trailings lay = trailings (kept ++ left) ∧
      ((kept ++ left).filter (·.bits.comment)).Sublist lay := by
  intro lay hlay
  have hkf : kept.filter (fun f => !f.bits.blank) = kept := by
    rw [List.filter_eq_self]
    intro f hf; simp [hk f hf]
  have hlf : fortranLines (left.map leftover) = [] := by
    unfold fortranLines
    rw [List.filter_eq_nil_iff]
    intro g hg
    obtain ⟨f, _, rfl⟩ := List.mem_map.mp hg
    simp [leftover_not_fortran]
  have hlf2 : fortranLines ((left.map leftover).filter (fun f => !f.bits.blank)) = [] := by
    unfold fortranLines at hlf ⊢
    rw [List.filter_eq_nil_iff] at hlf ⊢
    intro g hg
    exact hlf g (List.mem_filter.mp hg).1
  have hsub : (left.filter (·.bits.comment)).Sublist
      ((left.map leftover).filter (fun f => !f.bits.blank)) := by
    clear hlf hlf2 hlay
    induction left with
    | nil => simp
    | cons f fs ih =>
      have ih' := ih (fun g hg => hl g (by simp [hg]))
      rw [List.filter_cons, List.map_cons, List.filter_cons]
      by_cases hc : f.bits.comment = true
      · rw [if_pos hc, leftover_comment hc, if_pos (by simp [hl f (by simp)])]
        exact ih'.cons_cons f
      · rw [if_neg hc]
        split
        · exact ih'.cons _
        · exact ih'
  obtain ⟨ht1, ht2⟩ := trailings_leftover left hl
  by_cases hb : left.any blanked = true
  · rw [if_pos hb, List.filter_append, hkf] at hlay
    subst hlay
    refine ⟨?_, ?_, ?_⟩
    · unfold fortranLines at hlf2 ⊢
      rw [List.filter_append, hlf2, List.append_nil]
    · rw [trailings_append, trailings_append, ht1]
    · rw [List.filter_append]
      exact (List.filter_sublist).append hsub
  · rw [if_neg hb] at hlay
    subst hlay
    refine ⟨?_, ?_, ?_⟩
    · unfold fortranLines at hlf ⊢
      rw [List.filter_append, hlf, List.append_nil]
    · rw [trailings_append, trailings_append, ht2]
    · rw [List.filter_append]
      exact (List.filter_sublist).append (hsub.trans List.filter_sublist)

/-- `text_from_frags` as a loop and a last step. -/
theorem textFromFrags_eq (l : LLine) (f : FileLine) (fs : List FileLine)
    (hl : l.layout = f :: fs) (hf : f.isFortran = true) (m : Nat) (s : Fmt)
    (hm : maxMainTxtLen ({ f with main_txt := [] } : FileLine).makeUncontinued = .ok m)
    (hs : Fmt.tokens ⟨[], ({ f with main_txt := [] } : FileLine).makeUncontinued, fs, true, m⟩
      l.frags = .ok s) :
    ∃ l', l.textFromFrags = .ok l' ∧ l'.frags = l.frags ∧
      l'.stmts = l'.initStmts.stmts ∧ l'.label = l.label ∧
      l'.layout = (if (if l.frags = [] then s.cur :: s.rest else s.rest).any blanked then
          ((if l.frags = [] then s.done else s.done ++ [s.cur]) ++
            (if l.frags = [] then s.cur :: s.rest else s.rest).map leftover).filter
              (fun f => !f.bits.blank)
        else (if l.frags = [] then s.done else s.done ++ [s.cur]) ++
            (if l.frags = [] then s.cur :: s.rest else s.rest).map leftover) := by
  unfold LLine.textFromFrags
  rw [hl]
  simp only [hf, Bool.true_eq_false, if_false]
  rw [hm]
  simp only [Res.ok_bind]
  rw [hs]
  simp only [Res.ok_bind]
  generalize (if l.frags = [] then s.cur :: s.rest else s.rest) = left
  generalize (if l.frags = [] then s.done else s.done ++ [s.cur]) = kept
  by_cases hb : left.any blanked = true
  · rw [if_pos hb, if_pos hb]
    exact ⟨_, rfl, rfl, rfl, rfl, rfl⟩
  · rw [if_neg hb, if_neg hb]
    exact ⟨_, rfl, rfl, rfl, rfl, rfl⟩

/-- **C18** (outcome) Reformatting succeeds, unless the first line is indented by 74 or more columns
(an assertion may fail) or the spacing of a token behind the first one was never set (undefined). -/
theorem C18_outcome (l : LLine) (hl : StatementLayout l.layout)
    (ha : ∀ t ∈ l.frags, t.text.head? ≠ some '&') :
    (∃ l', l.textFromFrags = .ok l') ∨
    (l.textFromFrags = .error .assertion ∧ ∃ f, l.layout.head? = some f ∧ 74 ≤ leftWidth f) ∨
    (l.textFromFrags = .error .ub ∧ ∃ t ∈ l.frags.tail, t.pre = none) := by
  obtain ⟨⟨f, fs, he, hf⟩, hfs⟩ := hl
  rw [he] at hfs
  have hcm := fortran_not_comment (uncontinued_fortran hf)
  rcases maxMainTxtLen_cases _ hcm with ⟨m, hm, hmp, _⟩ | ⟨hm, hw⟩
  · have hinv := start_inv f fs hf hfs m hmp
    rcases tokens_loop l.frags [] _ hinv ha with ⟨s, hs, _⟩ | ⟨hs, hw⟩ | ⟨hs, t, ht, hp⟩
    · obtain ⟨l', h, _⟩ := textFromFrags_eq l f fs he hf m s hm hs
      exact Or.inl ⟨l', h⟩
    · right; left
      refine ⟨?_, f, by rw [he]; rfl, by omega⟩
      unfold LLine.textFromFrags
      rw [he]
      simp only [hf, Bool.true_eq_false, if_false]
      rw [hm]
      simp only [Res.ok_bind]
      rw [hs]
      rfl
    · right; right
      refine ⟨?_, t, by simpa using ht, hp⟩
      unfold LLine.textFromFrags
      rw [he]
      simp only [hf, Bool.true_eq_false, if_false]
      rw [hm]
      simp only [Res.ok_bind]
      rw [hs]
      rfl
  · right; left
    rw [makeUncontinued_width] at hw
    refine ⟨?_, f, by rw [he]; rfl, by omega⟩
    unfold LLine.textFromFrags
    rw [he]
    simp only [hf, Bool.true_eq_false, if_false]
    rw [hm]
    rfl

/-- **C18** For a layout of statement and comment lines, reformatting writes every token, in order and
unchanged, with only blanks between tokens; every line but the last is continued; all comment
lines and all comments at the ends of lines are still there. -/
theorem C18_text_partial (l l' : LLine) (hl : StatementLayout l.layout)
    (ha : ∀ t ∈ l.frags, t.text.head? ≠ some '&') (h : l.textFromFrags = .ok l') :
    l'.frags = l.frags ∧ l'.label = l.label ∧
    l'.stmts = l.initStmts.stmts ∧
    Spaced (l.frags.map Tok.text) (layoutText l'.layout) ∧
    (l.frags ≠ [] → ∃ init last, fortranLines l'.layout = init ++ [last] ∧
      (∀ g ∈ init, g.bits.continued = true) ∧ last.bits.continued = false) ∧
    (l.layout.filter (·.bits.comment)).Sublist l'.layout ∧
    trailings l'.layout = trailings l.layout := by
  obtain ⟨⟨f, fs, he, hf⟩, hfs⟩ := hl
  rw [he] at hfs
  have hcm := fortran_not_comment (uncontinued_fortran hf)
  have hfail : ∀ e, l.textFromFrags = .error e → False := by
    intro e he; rw [h] at he; simp at he
  rcases maxMainTxtLen_cases _ hcm with ⟨m, hm, hmp, _⟩ | ⟨hm, hw⟩
  swap
  · exact (hfail .assertion (by
      unfold LLine.textFromFrags
      rw [he]
      simp only [hf, Bool.true_eq_false, if_false]
      rw [hm]; rfl)).elim
  have hinv := start_inv f fs hf hfs m hmp
  obtain ⟨s, hs, hli⟩ : ∃ s, Fmt.tokens ⟨[], ({ f with main_txt := [] } : FileLine).makeUncontinued,
      fs, true, m⟩ l.frags = .ok s ∧ LoopInv (leftWidth f) ((f :: fs).filter (·.bits.comment))
        (trailings (f :: fs)) ([] ++ l.frags.map Tok.text) s := by
    rcases tokens_loop l.frags [] _ hinv ha with h' | ⟨hs, hw⟩ | ⟨hs, _⟩
    · exact h'
    · exact (hfail .assertion (by
        unfold LLine.textFromFrags
        rw [he]
        simp only [hf, Bool.true_eq_false, if_false]
        rw [hm]
        simp only [Res.ok_bind]
        rw [hs]; rfl)).elim
    · exact (hfail .ub (by
        unfold LLine.textFromFrags
        rw [he]
        simp only [hf, Bool.true_eq_false, if_false]
        rw [hm]
        simp only [Res.ok_bind]
        rw [hs]; rfl)).elim
  obtain ⟨l2, h2, hfr, hst, hlab, hlay⟩ := textFromFrags_eq l f fs he hf m s hm hs
  obtain rfl : l2 = l' := by rw [h] at h2; simpa using h2.symm
  have hcf := hli.inv.curFortran
  have hcmf := fortran_not_comment hcf
  have hk : ∀ g ∈ (if l.frags = [] then s.done else s.done ++ [s.cur]), g.bits.blank = false := by
    intro g hg
    split at hg
    · exact (hli.inv.done g hg).1
    · rcases List.mem_append.mp hg with hg | hg
      · exact (hli.inv.done g hg).1
      · simp at hg; rw [hg]; exact fortran_not_blank hcf
  have hlft : ∀ g ∈ (if l.frags = [] then s.cur :: s.rest else s.rest), g.bits.blank = false := by
    intro g hg
    split at hg
    · rcases List.mem_cons.mp hg with rfl | hg
      · exact fortran_not_blank hcf
      · exact (hli.inv.rest g hg).1
    · exact (hli.inv.rest g hg).1
  obtain ⟨r1, r2, r3⟩ := finish_layout _ _ hk hlft _ hlay
  have hall : (if l.frags = [] then s.done else s.done ++ [s.cur]) ++
      (if l.frags = [] then s.cur :: s.rest else s.rest) = s.done ++ s.cur :: s.rest := by
    split <;> simp
  rw [hall] at r2 r3
  have hdf : ∀ g ∈ fortranLines s.done, g.bits.continued = true := by
    intro g hg
    obtain ⟨hg1, hg2⟩ := List.mem_filter.mp hg
    rcases (hli.inv.done g hg1).2 with hc | hc
    · rw [comment_not_fortran hc] at hg2; simp at hg2
    · exact hc.2
  have htext := hli.text
  rw [List.nil_append] at htext
  refine ⟨hfr, hlab, ?_, ?_, ?_, ?_, ?_⟩
  · rw [hst]
    unfold LLine.initStmts
    rw [hfr]
  · unfold layoutText
    rw [r1]
    by_cases hn : l.frags = []
    · have hdone : s.done = [] := by
        rw [hn] at hs
        simp only [Fmt.tokens, Except.ok.injEq] at hs
        rw [← hs]
      rw [if_pos hn, hn, hdone]
      exact Spaced.nil
    · rw [if_neg hn]
      have : fortranLines (s.done ++ [s.cur]) = fortranLines s.done ++ [s.cur] := by
        unfold fortranLines
        rw [List.filter_append, List.filter_cons, hcf]
        simp
      rw [this, List.map_append]
      exact htext
  · intro hn
    rw [r1, if_neg hn]
    refine ⟨fortranLines s.done, s.cur, ?_, hdf, hli.ends⟩
    unfold fortranLines
    rw [List.filter_append, List.filter_cons, hcf]
    simp
  · rw [he, ← hli.inv.comments]
    exact r3
  · rw [r2, he]
    exact hli.inv.trail

/-! ### The exact lines, when no token is longer than a line -/

theorem laidOut_concat (c : List Tok) (t : Tok) (n : Int) (hc : c ≠ []) (hp : t.pre = some n) :
    laidOut (c ++ [t]) = laidOut c ++ blanks n.toNat ++ t.text := by
  cases c with
  | nil => exact absurd rfl hc
  | cons u us => simp [laidOut, hp]

/-- What holds between two tokens: the lines written so far are the lines of consecutive chunks of
the tokens written so far. -/
structure ChunkInv (L : Nat) (cm : List FileLine) (tr : List Str) (toks : List Tok) (s : Fmt) : Prop where
  inv : FmtInv L cm tr s
  room : 38 ≤ s.maxLen
  width : leftWidth s.cur + s.maxLen ≤ 76
  fits : s.cur.main_txt.length ≤ s.maxLen
  done : ∀ f ∈ fortranLines s.done, leftWidth f + f.main_txt.length ≤ 76
  chunks : ∃ cs c, s.lines = (cs ++ [c]).map laidOut ∧ (cs ++ [c]).flatten = toks ∧
    (∀ d ∈ cs, d ≠ []) ∧ (s.start = true ↔ c = [])

theorem token_chunk {L cm tr toks} {s s' : Fmt} (h : ChunkInv L cm tr toks s) (t : Tok)
    (hL : L ≤ 36) (ht : t.text.length ≤ 37) (he : s.token t = .ok s') :
    ChunkInv L cm tr (toks ++ [t]) s' := by
  obtain ⟨cs, c, hlines, hflat, hne, hstart⟩ := h.chunks
  have hlines' : (fortranLines s.done).map FileLine.main_txt = cs.map laidOut ∧
      s.cur.main_txt = laidOut c := by
    unfold Fmt.lines at hlines
    rw [List.map_append] at hlines
    have := List.append_inj' hlines (by simp)
    exact ⟨this.1, by simpa using this.2⟩
  obtain ⟨hl1, hl2⟩ := hlines'
  unfold Fmt.token at he
  have h38 := h.room
  rcases appendIf_cases s.cur.main_txt s.maxLen t s.start (by omega) with ⟨n, hn, ha, hlen⟩ |
    ⟨ha, n, hn, hlong⟩ | ⟨h1, h2, ha⟩
  · rw [ha] at he
    simp only [Res.ok_bind, Except.ok.injEq] at he
    subst he
    have hi := h.inv.setMain (s.cur.main_txt ++ blanks n.toNat ++ t.text)
    refine ⟨⟨hi.curFortran, hi.done, hi.rest, hi.left, hi.comments, hi.trail⟩, h.room, h.width, hlen,
      h.done, cs, c ++ [t], ?_, ?_, hne, by simp⟩
    · simp only [Fmt.lines, List.map_append, hl1, List.map_cons, List.map_nil]
      congr 2
      rcases hn with ⟨rfl, hs⟩ | ⟨hs, hp⟩
      · have := hstart.mp hs
        subst this
        rw [hl2]; simp [laidOut, blanks]
      · have : c ≠ [] := fun hc => by rw [hstart.mpr hc] at hs; simp at hs
        rw [laidOut_concat c t n this hp, hl2]
    · rw [← hflat]; simp
  · rw [ha] at he
    simp only [Res.ok_bind] at he
    by_cases hs : s.start = true
    · exfalso
      have := hstart.mp hs
      subst this
      rcases hn with ⟨rfl, _⟩ | ⟨hs', _⟩
      · rw [hl2] at hlong; simp [laidOut] at hlong; omega
      · rw [hs] at hs'; simp at hs'
    · rw [if_neg hs] at he
      obtain ⟨i1, i2, i3, i4, i5, i6, i7, i8⟩ := continueFl_inv h.inv
      have hcm := fortran_not_comment i1.curFortran
      have hw : leftWidth s.continueFl.cur ≤ 38 := by
        have := i1.left; omega
      rcases maxMainTxtLen_cases _ hcm with ⟨m, hm, hmp, hmw, hm38⟩ | ⟨hm, hw2⟩
      · rw [hm] at he
        simp only [Res.ok_bind] at he
        have hm38 := hm38 hw
        rcases appendIf_cases s.continueFl.cur.main_txt m t true hmp with ⟨n, hn, ha, hlen⟩ |
          ⟨ha, n, hn, hlong⟩ | ⟨h1, _⟩
        · rw [ha] at he
          simp only [Res.ok_bind, Except.ok.injEq] at he
          subst he
          obtain rfl : n = 0 := by rcases hn with ⟨h, _⟩ | ⟨h, _⟩ <;> simp_all
          have hi := i1.setMain (s.continueFl.cur.main_txt ++ blanks (0 : Int).toNat ++ t.text)
          refine ⟨⟨hi.curFortran, hi.done, hi.rest, hi.left, hi.comments, hi.trail⟩, hm38, hmw, hlen,
            ?_, cs ++ [c], [t], ?_, ?_, ?_, by simp⟩
          · intro f hf
            simp only at hf
            rw [i6] at hf
            rcases List.mem_append.mp hf with hf | hf
            · exact h.done f hf
            · simp only [List.mem_singleton] at hf
              subst hf
              have hmc := makeContinued_fields s.cur
              have e1 : leftWidth s.cur.makeContinued = leftWidth s.cur := by
                simp [leftWidth, hmc.2.1, hmc.2.2]
              rw [e1, hmc.1]
              have := h.width
              have := h.fits
              omega
          · have : (fortranLines s.continueFl.done).map FileLine.main_txt = s.lines := i5
            simp only [Fmt.lines] at this ⊢
            rw [this, i2, hl1, hl2]
            simp [laidOut, blanks]
          · rw [← hflat]; simp
          · intro d hd
            rcases List.mem_append.mp hd with hd | hd
            · exact hne d hd
            · simp at hd; subst hd
              exact fun hc => hs (hstart.mpr hc)
        · exfalso
          rcases hn with ⟨rfl, _⟩ | ⟨hs', _⟩
          · rw [i2] at hlong; simp at hlong; omega
          · simp at hs'
        · simp at h1
      · omega
  · rw [ha] at he; simp at he

theorem tokens_chunk {L cm tr} (hL : L ≤ 36) : ∀ (rest toks : List Tok) (s s' : Fmt),
    ChunkInv L cm tr toks s → (∀ t ∈ rest, t.text.length ≤ 37) → s.tokens rest = .ok s' →
    ChunkInv L cm tr (toks ++ rest) s' := by
  intro rest
  induction rest with
  | nil =>
    intro toks s s' h _ he
    simp only [Fmt.tokens, Except.ok.injEq] at he
    subst he
    simpa using h
  | cons t rest ih =>
    intro toks s s' h ht he
    rw [Fmt.tokens] at he
    rbind he with s1 h1
    have := ih (toks ++ [t]) s1 s' (token_chunk h t hL (ht t (by simp)) h1)
      (fun u hu => ht u (by simp [hu])) he
    simpa using this

/-- **C18** (the exact lines) When no token is longer than 37 characters and the statement starts in
the first 37 columns, each line written is a run of consecutive tokens with the recorded
number of blanks between them, no line is empty, and no text goes past column 76. -/
theorem C18_lines_partial (l l' : LLine) (hl : StatementLayout l.layout)
    (hw : ∀ f, l.layout.head? = some f → leftWidth f ≤ 36)
    (ht : ∀ t ∈ l.frags, t.text.length ≤ 37) (hn : l.frags ≠ []) (h : l.textFromFrags = .ok l') :
    (∃ chunks : List (List Tok), chunks.flatten = l.frags ∧ (∀ c ∈ chunks, c ≠ []) ∧
      (fortranLines l'.layout).map FileLine.main_txt = chunks.map laidOut) ∧
    ∀ f ∈ fortranLines l'.layout, leftWidth f + f.main_txt.length ≤ 76 := by
  obtain ⟨⟨f, fs, he, hf⟩, hfs⟩ := hl
  rw [he] at hfs
  have hL : leftWidth f ≤ 36 := hw f (by rw [he]; rfl)
  have hcm := fortran_not_comment (uncontinued_fortran hf)
  rcases maxMainTxtLen_cases _ hcm with ⟨m, hm, hmp, hmw, hm38⟩ | ⟨hm, hw2⟩
  swap
  · rw [makeUncontinued_width] at hw2; omega
  rw [makeUncontinued_width] at hmw hm38
  have hinv := start_inv f fs hf hfs m hmp
  have hmt := (makeUncontinued_fields { f with main_txt := [] }).1
  have hci : ChunkInv (leftWidth f) ((f :: fs).filter (·.bits.comment)) (trailings (f :: fs)) []
      ⟨[], ({ f with main_txt := [] } : FileLine).makeUncontinued, fs, true, m⟩ := by
    refine ⟨hinv.inv, hm38 (by omega), by rw [makeUncontinued_width]; exact hmw, ?_, ?_,
      [], [], ?_, rfl, by simp, by simp⟩
    · simp [hmt]
    · simp [fortranLines]
    · simp [Fmt.lines, fortranLines, hmt, laidOut]
  obtain ⟨s, hs⟩ : ∃ s, Fmt.tokens ⟨[], ({ f with main_txt := [] } : FileLine).makeUncontinued,
      fs, true, m⟩ l.frags = .ok s := by
    unfold LLine.textFromFrags at h
    rw [he] at h
    simp only [hf, Bool.true_eq_false, if_false] at h
    rw [hm] at h
    simp only [Res.ok_bind] at h
    rbind h with s hs
    exact ⟨s, hs⟩
  have hc := tokens_chunk hL l.frags [] _ s hci ht hs
  rw [List.nil_append] at hc
  obtain ⟨l2, h2, hfr, hst, hlab, hlay⟩ := textFromFrags_eq l f fs he hf m s hm hs
  obtain rfl : l2 = l' := by rw [h] at h2; simpa using h2.symm
  have hcf := hc.inv.curFortran
  have hk : ∀ g ∈ s.done ++ [s.cur], g.bits.blank = false := by
    intro g hg
    rcases List.mem_append.mp hg with hg | hg
    · exact (hc.inv.done g hg).1
    · simp at hg; rw [hg]; exact fortran_not_blank hcf
  have hlft : ∀ g ∈ s.rest, g.bits.blank = false := fun g hg => (hc.inv.rest g hg).1
  simp only [if_neg hn] at hlay
  obtain ⟨r1, _, _⟩ := finish_layout _ _ hk hlft _ hlay
  have hfl : fortranLines (s.done ++ [s.cur]) = fortranLines s.done ++ [s.cur] := by
    unfold fortranLines
    rw [List.filter_append, List.filter_cons, hcf]
    simp
  rw [r1, hfl]
  constructor
  · obtain ⟨cs, c, q1, q2, q3, q4⟩ := hc.chunks
    refine ⟨cs ++ [c], q2, ?_, ?_⟩
    · intro d hd
      rcases List.mem_append.mp hd with hd | hd
      · exact q3 d hd
      · simp at hd
        subst hd
        have hst : s.start = false := by
          cases hb : s.start with
          | false => rfl
          | true =>
            exfalso
            have hls : ∀ (ts : List Tok) (s s' : Fmt), s.tokens ts = .ok s' → ts ≠ [] →
                s'.start = false := by
              intro ts
              induction ts with
              | nil => intro _ _ _ h; exact absurd rfl h
              | cons t ts ih =>
                intro a b hab _
                rw [Fmt.tokens] at hab
                rbind hab with a1 ha1
                cases ts with
                | cons u us => exact ih a1 b hab (by simp)
                | nil =>
                  simp only [Fmt.tokens, Except.ok.injEq] at hab
                  subst hab
                  unfold Fmt.token at ha1
                  rbind ha1 with o ho
                  cases o with
                  | some m =>
                    simp only [Except.ok.injEq] at ha1
                    rw [← ha1]
                  | none =>
                    have hsplit : ∀ (x y : Fmt), x.splitTok t = .ok y → y.start = false := by
                      intro x y hxy
                      unfold Fmt.splitTok at hxy
                      split at hxy
                      · simp at hxy
                      · rbind hxy with z hz
                        simp only [Except.ok.injEq] at hxy
                        rw [← hxy]
                    dsimp only at ha1
                    split at ha1
                    · exact hsplit _ _ ha1
                    · rbind ha1 with ml hml
                      rbind ha1 with o2 ho2
                      cases o2 with
                      | some m =>
                        simp only [Except.ok.injEq] at ha1
                        rw [← ha1]
                      | none => exact hsplit _ _ ha1
            rw [hls _ _ _ hs hn] at hb
            simp at hb
        intro hc0
        rw [q4.mpr hc0] at hst
        simp at hst
    · rw [List.map_append]
      exact q1
  · intro g hg
    rcases List.mem_append.mp hg with hg | hg
    · exact hc.done g hg
    · simp at hg; subst hg
      have := hc.width
      have := hc.fits
      omega

/-! ### Witnesses -/

/-- The printed lines of a free-format logical line after `text_from_frags`. -/
def reformatted (raw : List String) : Res (Option (List String)) := do
  match ← freeLines raw with
  | none => .ok none
  | some fs =>
    let r ← LLine.ofLines {} fs
    let s ← r.1.textFromFrags
    .ok (some (s.layout.map (fun f => String.ofList f.print)))

/-- The token texts of a free-format logical line. -/
def tokenTexts (raw : List String) : Res (Option (List String)) := do
  match ← freeLines raw with
  | none => .ok none
  | some fs =>
    let r ← LLine.ofLines {} fs
    .ok (some (r.1.frags.map (fun t => String.ofList t.text)))

/-- The printed lines of a fixed-format logical line after `text_from_frags`. -/
def reformattedFixed (raw : List String) : Res (Option (List String)) := do
  match ← analyzeAllFixed 72 1 NUL (raw.map String.toList) with
  | none => .ok none
  | some fs =>
    let r ← LLine.ofLines {} fs
    let s ← r.1.textFromFrags
    .ok (some (s.layout.map (fun f => String.ofList f.print)))

/-- **C18** With a blank line inside of a continued statement, tokens are written to that line, which
is then taken out: the token `b` is lost. -/
theorem C18_violation_blank : reformatted
    ["aaaaaaaaaaaaaaaaaaaaaaaaaaaaaaaaaaaaaaaaaaaaaaaaaaaaaaaaaaaaaaaaaaaaaaaa = &", "", "b"] =
    .ok (some ["aaaaaaaaaaaaaaaaaaaaaaaaaaaaaaaaaaaaaaaaaaaaaaaaaaaaaaaaaaaaaaaaaaaaaaaa = &"]) := by
  decide +kernel

/-- **C18** A character literal that is longer than a line gains a blank: the ampersand that is meant
to follow it directly is moved away again by `continue_fl`. -/
theorem C18_violation_literal :
    tokenTexts ["'aaaaaaaaaaaaaaaaaaaaaaaaaaaaaaaaaaaaaaaaaaaaaaaaaaaaaaaaaaaaaaaaaaaaaaaaaaaaaa'"] =
      .ok (some ["'aaaaaaaaaaaaaaaaaaaaaaaaaaaaaaaaaaaaaaaaaaaaaaaaaaaaaaaaaaaaaaaaaaaaaaaaaaaaaa'"]) ∧
    reformatted ["'aaaaaaaaaaaaaaaaaaaaaaaaaaaaaaaaaaaaaaaaaaaaaaaaaaaaaaaaaaaaaaaaaaaaaaaaaaaaaa'"] =
      .ok (some ["'aaaaaaaaaaaaaaaaaaaaaaaaaaaaaaaaaaaaaaaa &",
        "  &aaaaaaaaaaaaaaaaaaaaaaaaaaaaaaaaaaaaaa'"]) ∧
    tokenTexts ["'aaaaaaaaaaaaaaaaaaaaaaaaaaaaaaaaaaaaaaaa &",
        "  &aaaaaaaaaaaaaaaaaaaaaaaaaaaaaaaaaaaaaa'"] =
      .ok (some ["'aaaaaaaaaaaaaaaaaaaaaaaaaaaaaaaaaaaaaaaa aaaaaaaaaaaaaaaaaaaaaaaaaaaaaaaaaaaaaa'"]) := by
  decide +kernel

/-- **C18** In fixed format the continuation mark in column 6 is removed, so that the second line is a
statement of its own. -/
theorem C18_violation_fixed : reformattedFixed
    ["      aaaaaaaaaaaaaaaaaaaaaaaaaaaaaa = bbbbbbbbbbbbbbbbbbbbb",
     "     &  + ccccccccccccccccccccccccc"] =
    .ok (some ["      aaaaaaaaaaaaaaaaaaaaaaaaaaaaaa = bbbbbbbbbbbbbbbbbbbbb + &",
     "        ccccccccccccccccccccccccc"]) := by
  decide +kernel

/-- **C18** A continuation line that is emptied keeps its leading ampersand in front of its comment. -/
theorem C18_violation_ampersand :
    reformatted ["a &", "& = b ! hi"] = .ok (some ["a  = b", "& ! hi"]) := by decide +kernel

/-- **C18** A fused keyword behind another token: the spaces before its first half are read
uninitialised. -/
theorem C18_violation_fused : reformatted ["a = 1; enddo"] = .error .ub := by decide +kernel

example : reformatted ["aaaaaaaaaaaaaaaaaaaaaaaaaaaaaaaaaaaaaaaaaaaaaaaaa = b + cc & ! hi", " ! ho",
      "+ aaaaaaaaaaaaaaa + 3 &", "+ 4 ! x"] =
    .ok (some ["aaaaaaaaaaaaaaaaaaaaaaaaaaaaaaaaaaaaaaaaaaaaaaaaa = b + cc + & ! hi", " ! ho",
      "  aaaaaaaaaaaaaaa + 3 + 4", " ! x"]) := by decide +kernel

end FLPR
