import Verif.StmtParser.DesigLemmas
/-!
# Assignment, call, where and nullify statements as functions on lists of tokens
-/

namespace FLPR
namespace SP
open Spec

theorem whole_fresh {s : Strm} (h : WholeStmt s) : Fresh s := by
  have hlo := h.start
  have hhi := h.pos_hi
  have hg : GoodStmt s := by
    refine ⟨by omega, hhi, h.hi_len, h.tags, s.lo, le_refl _, ?_⟩
    have := h.nested
    rwa [restOf_map, h.start] at this
  refine ⟨hg, h.nested, ?_⟩
  rintro h0 ⟨h1, _⟩
  have := restOf_length hg
  rw [h0] at this
  simp at this
  omega

theorem split_append {ts u v : List Tok} (h : SplitAt ts u v) : SplitAt (u ++ v) u v := by
  have := h.1
  subst this
  exact h

theorem fresh_tags {s : Strm} (h : GoodStmt s) : ∀ a ∈ restOf s, LexerTag a.token := by
  intro a ha
  have h1 : a ∈ s.all := List.mem_of_mem_take (List.mem_of_mem_drop ha)
  exact h.tags a.token (List.mem_map_of_mem h1)

/-! ### Assignment -/

def assignTail : PForm := (PForm.seqs ((formsOf (toFormG plainBody 20) [.tok Tag.TK_EQUAL, .rule .expr, .peek Tag.BAD]).getD []))

/-- What `assignment_stmt` does. -/
def assignL (u v : List Tok) : Option (List Tok) := (variableL u v).bind assignTail.run

theorem does_assignment {x : Exts} (hx : GoodExts x) {s : Strm} (h : Fresh s) {u v : List Tok}
    (hsp : SplitAt (restOf s) u v) : Does x (.rule .assignment_stmt) s (assignL u v) := by
  refine does_rule (q := .seq Tag.SG_ASSIGNMENT_STMT [.rule .«variable», .tok Tag.TK_EQUAL, .rule .expr,
    .peek Tag.BAD]) rfl rfl ?_
  refine does_seq hx h.good (by decide +kernel) ?_
  refine ⟨_, does_variable hx h.good (endsAt_fresh h hsp), fun hn => by rw [assignL, hn]; rfl, fun q h1 h2 h3 => ?_⟩
  have hlo := h.good.lo_pos
  rw [assignL, h3, Option.bind_some]
  exact seqSpec_all (k := 20) hx (by decide +kernel) (by decide +kernel) (by decide +kernel)
    (GoodStmt_goto h.good (by omega) h2)

theorem assign_is {ts u v : List Tok} (hsp : SplitAt ts u v) (hw : WellNested (ts.map (·.token))) (hb : NoBad ts) :
    (∃ z, assignL u v = some z) ↔ Std.assignmentStmt.Is ts := by
  have hts := hsp.1
  have hsp := split_append hsp
  subst hts
  have same := sameForm_is (a := (PForm.seq variableF assignTail).erase) (b := Std.assignmentStmt) (by decide +kernel) (u ++ v)
  constructor
  · rintro ⟨z, hz⟩
    rw [assignL, Option.bind_eq_some_iff] at hz
    obtain ⟨y, hy, hz⟩ := hz
    rw [variableL] at hy
    split at hy
    · have hrun : (PForm.seq variableF assignTail).run (u ++ v) = some z := by rw [PForm.run, hy]; exact hz
      have hn : Nested ((u ++ v).map (·.token)) := ⟨_, 0, hw, rfl⟩
      have := endsF_sound _ _ _ (by decide +kernel) hn hb hrun
      subst this
      obtain ⟨w, e1, e2⟩ := run_sound _ _ _ hn hrun
      rw [List.append_nil] at e1
      rw [← e1] at e2
      exact same.mp e2
    · have := callL_ends hsp hy
      subst this
      rw [show assignTail.run [] = none by decide +kernel] at hz
      cases hz
  · intro h
    have h0 := h
    obtain ⟨d, e, he, hd, f, g, rfl, hf, hg⟩ := h
    have hhead : PForm.headTag (f ++ g) = Tag.TK_EQUAL := by
      obtain ⟨a, rfl, ha⟩ := hf
      exact ha
    have hcall : callL u v = none := by
      rw [callL]
      split
      · next hc =>
        exfalso
        obtain ⟨a, rfl, ha⟩ := hf
        refine eq_breaks (l := (u ++ v).map (·.token)) (d := d.map (·.token)) (e := g.map (·.token)) ?_ hb.tags
          (designator_unbroken hd) (call_unbroken hw hsp hc).2
        rw [he]; simp [ha]
      · rfl
    refine ⟨[], ?_⟩
    rw [assignL, variableL, if_pos hcall, he, variable_take hd (he ▸ hb) (by rw [hhead]; decide) (by rw [hhead]; decide),
      Option.bind_some]
    rw [he] at hb
    refine takesAll_sound (ex := []) (by decide +kernel) hb.right ((eraseBut_nil _ _).mpr ?_)
    exact (sameForm_is (a := assignTail.erase) (b := .seqs [Std.equals, .expr]) (by decide +kernel) _).mpr ⟨f, g, rfl, hf, hg⟩

theorem assignL_ends {ts u v : List Tok} (hsp : SplitAt ts u v) (hw : WellNested (ts.map (·.token))) (hb : NoBad ts) {z : List Tok}
    (hz : assignL u v = some z) : z = [] := by
  have hts := hsp.1
  have hsp := split_append hsp
  subst hts
  rw [assignL, Option.bind_eq_some_iff] at hz
  obtain ⟨y, hy, hz⟩ := hz
  rw [variableL] at hy
  split at hy
  · have hrun : (PForm.seq variableF assignTail).run (u ++ v) = some z := by rw [PForm.run, hy]; exact hz
    exact endsF_sound _ _ _ (by decide +kernel) ⟨_, 0, hw, rfl⟩ hb hrun
  · have := callL_ends hsp hy
    subst this
    rw [show assignTail.run [] = none by decide +kernel] at hz
    cases hz

theorem assign_fresh {x : Exts} (hx : GoodExts x) {s : Strm} (h : Fresh s) :
    ∃ r, Does x (.rule .assignment_stmt) s r ∧ ((∃ z, r = some z) ↔ Std.assignmentStmt.Is (restOf s)) ∧ ∀ z, r = some z → z = [] := by
  obtain ⟨u, v, hsp⟩ := split_exists h.wn
  exact ⟨_, does_assignment hx h hsp, assign_is hsp h.wn (good_noBad h.good), fun z hz => assignL_ends hsp h.wn (good_noBad h.good) hz⟩

/-! ### Call -/

def callTail : PForm :=
  (PForm.seqs ((formsOf (toFormG plainBody 20) [.opt (.parens Tag.HOIST [.opt (.list Tag.SG_ACTUAL_ARG_SPEC_LIST (.rule .actual_arg_spec))]),
    .peek Tag.BAD]).getD []))

/-- What `call_stmt` does behind the keyword. -/
def afterCall (u v : List Tok) : Option (List Tok) := if designatorF.run u = some [] then callTail.run v else none

/-- One token further, if it is neither a parenthesis nor a bracket. -/
theorem fresh_next {s : Strm} (h : Fresh s) {a : Tok} {ts : List Tok} (hr : restOf s = a :: ts) (ha : Plain a.token) :
    Fresh (s.goto (s.pos + 1)) ∧ restOf (s.goto (s.pos + 1)) = ts := by
  have hlo := h.good.lo_pos
  have hlen := restOf_length h.good
  have hl2 := h.good.hi_len
  rcases rest_cases h.good with ⟨_, h2, _⟩ | ⟨b, hlt, h2, _, _, _, hall⟩
  · rw [h2] at hr; cases hr
  · have h3 := hr
    rw [h2] at h3
    injection h3 with e1 e2
    subst e1
    have hg := GoodStmt_goto h.good (q := s.pos + 1) (by omega) (by omega)
    refine ⟨⟨hg, ?_, ?_⟩, e2⟩
    · have := h.wn
      rw [h2, List.map_cons] at this
      exact wn_plain_inv this ha
    · rintro h0 ⟨_, h4⟩
      have h5 := restOf_length hg
      rw [h0] at h5
      have h5 : 0 = s.hi - (s.pos + 1) := h5
      have h4 : (tagsOf s)[s.hi - 1]? = some Tag.TK_PARENR := h4
      rw [show s.hi - 1 = s.pos by omega, tagsOf, List.getElem?_map, hall] at h4
      injection h4 with h4
      exact ha.2.1 h4

theorem does_call {x : Exts} (hx : GoodExts x) {s : Strm} (h : Fresh s) :
    ∃ r, Does x (.rule .call_stmt) s r ∧ ((∃ z, r = some z) ↔ Std.callStmt.Is (restOf s)) := by
  have build : ∀ r, SeqSpec x [.tok Tag.KW_CALL, .rule .procedure_designator,
      .opt (.parens Tag.HOIST [.opt (.list Tag.SG_ACTUAL_ARG_SPEC_LIST (.rule .actual_arg_spec))]), .peek Tag.BAD] s r →
      Does x (.rule .call_stmt) s r := by
    intro r hr
    exact does_rule (q := .seq Tag.SG_CALL_STMT _) rfl rfl (does_seq hx h.good (by decide +kernel) hr)
  have hlo := h.good.lo_pos
  have tokd : Does x (.tok Tag.KW_CALL) s ((PForm.tok Tag.KW_CALL).run (restOf s)) :=
    does_form (k := 1) hx rfl rfl rfl h.good
  by_cases hh : ∃ a ts, restOf s = a :: ts ∧ a.token = Tag.KW_CALL
  · obtain ⟨a, ts, hr, ha⟩ := hh
    obtain ⟨hf, hts⟩ := fresh_next h hr (by rw [ha]; unfold Plain; decide)
    obtain ⟨u, v, hsp⟩ := split_exists hf.wn
    rw [hr, PForm.run, PForm.take1, if_pos (by simp [ha])] at tokd
    refine ⟨afterCall u v, build _ ⟨_, tokd, (fun h => by cases h), fun q h1 h2 h3 => ?_⟩, ?_⟩
    · have hq : q = s.pos + 1 := by
        have e1 := restOf_length (GoodStmt_goto h.good (q := q) (by omega) h2)
        have e2 := restOf_length hf.good
        injection h3 with h3
        rw [← h3] at e1
        rw [hts] at e2
        rw [e1] at e2
        have e2 : s.hi - q = s.hi - (s.pos + 1) := e2
        have e3 := restOf_length h.good
        rw [hr] at e3
        simp at e3
        omega
      subst hq
      refine ⟨_, does_designator hx hf.good (endsAt_fresh hf hsp), fun hn => ?_, fun q h4 h5 h6 => ?_⟩
      · rw [afterCall]
        split
        · next hc => rw [if_pos hc] at hn; cases hn
        · rfl
      · split at h6
        · next hc =>
          injection h6 with h6
          rw [afterCall, if_pos hc, h6]
          have h4 : s.pos + 1 ≤ q := h4
          exact seqSpec_all (k := 20) hx (by decide +kernel) (by decide +kernel) (by decide +kernel)
            (GoodStmt_goto hf.good (q := q) (by show s.lo ≤ q; omega) h5)
        · cases h6
    · rw [hts] at hsp
      have hwt : WellNested (ts.map (·.token)) := by have := hf.wn; rwa [hts] at this
      have hb : NoBad ts := by have := good_noBad hf.good; rwa [hts] at this
      have htags := fresh_tags hf.good
      rw [hts] at htags
      constructor
      · rintro ⟨z, hz⟩
        rw [afterCall] at hz
        split at hz
        · next hc =>
          have e := hsp.1
          have hsp := split_append hsp
          subst e
          have h1 := (call_unbroken hwt hsp hc).1
          have hn : Nested (v.map (·.token)) := by
            rw [List.map_append] at hwt
            exact Nested.suffix ⟨_, 0, hwt, rfl⟩
          have hz0 := endsF_sound callTail v z (by decide +kernel) hn hb.right hz
          subst hz0
          obtain ⟨w, e1, e2⟩ := run_sound _ _ _ hn hz
          rw [List.append_nil] at e1
          rw [← e1] at e2
          have e2 := (sameForm_is (a := callTail.erase) (b := .opt Std.arguments) (by decide +kernel) v).mp e2
          rw [hr]
          exact ⟨[a], u ++ v, rfl, ⟨a, rfl, ha⟩, u, v, rfl, h1, v, [], by simp, e2, rfl⟩
        · cases hz
      · rw [hr]
        rintro ⟨_, _, e, ⟨b, rfl, _⟩, d, g0, rfl, hd, g, _, rfl, hg, rfl⟩
        rw [List.append_nil] at e
        injection e with _ e
        have e : ts = d ++ g := e
        have hsp2 : SplitAt ts d g := by
          refine ⟨e, ?_⟩
          rcases hg with hg | hg
          · obtain ⟨m, hm, hv⟩ := paren_is (by decide) hg
            exact .inr ⟨m, unbroken_wn (procDes_unbroken hd), hm, hv⟩
          · rw [show g = [] from hg] at e ⊢
            refine .inl ⟨rfl, ?_⟩
            rw [List.append_nil] at e
            subst e
            obtain ⟨u', _, rfl, _, w', _, rfl, ⟨c, rfl, hc⟩, rfl⟩ := hd
            simp
            rintro h
            rw [h] at hc
            exact absurd hc (by decide)
        obtain ⟨e1, e2⟩ := split_unique htags hsp hsp2
        subst e1 e2
        rw [e] at hb
        refine ⟨[], ?_⟩
        rw [afterCall, if_pos (designatorF_complete hb.left hd)]
        refine takesAll_sound (ex := []) (by decide +kernel) hb.right ((eraseBut_nil _ _).mpr ?_)
        exact (sameForm_is (a := callTail.erase) (b := .opt Std.arguments) (by decide +kernel) _).mpr hg
  · have hnone : (PForm.tok Tag.KW_CALL).run (restOf s) = none := by
      cases hr : restOf s with
      | nil => rfl
      | cons a ts =>
        rw [PForm.run, PForm.take1, if_neg]
        intro hc
        exact hh ⟨a, ts, hr, by simpa using hc⟩
    rw [hnone] at tokd
    refine ⟨none, build _ ⟨_, tokd, fun _ => rfl, fun q _ _ h => by cases h⟩, ?_⟩
    constructor
    · rintro ⟨z, hz⟩; cases hz
    · rintro ⟨_, w, e, ⟨a, rfl, ha⟩, _⟩
      exact absurd ⟨a, w, e, ha⟩ hh

/-! ### Where -/

theorem rest_pos {s : Strm} (hs : GoodStmt s) {q q' : Nat} (h1 : s.lo ≤ q) (h2 : q ≤ s.hi) (h3 : s.lo ≤ q') (h4 : q' ≤ s.hi)
    (h : restOf (s.goto q) = restOf (s.goto q')) : q = q' := by
  have e1 := restOf_length (GoodStmt_goto hs h1 h2)
  have e2 := restOf_length (GoodStmt_goto hs h3 h4)
  rw [h, e2] at e1
  have e1 : s.hi - q' = s.hi - q := e1
  omega

def whereHead : PForm :=
  (PForm.seqs ((formsOf (toFormG plainBody 20) [.tok Tag.KW_WHERE, .parens Tag.HOIST [.rule .logical_expr]]).getD []))

theorem whereHead_is (w : List Tok) : whereHead.erase.Is w ↔ Std.whereMask.Is w :=
  sameForm_is (a := whereHead.erase) (b := Std.whereMask) (by decide +kernel) w

theorem whereHead_take {w u : List Tok} (hb : NoBad (w ++ u)) (h : Std.whereMask.Is w) : whereHead.run (w ++ u) = some u := by
  exact (chk_sound (ex := []) ⟨2, true⟩ 60).1 whereHead [.any] (by decide +kernel) w [] u hb ((eraseBut_nil _ _).mpr ((whereHead_is w).mpr h)) any_shas

/-- Behind `where ( ... )`, unless nothing is left. -/
theorem fresh_where {s : Strm} (h : Fresh s) {q : Nat} (h1 : s.pos ≤ q) (h2 : q ≤ s.hi)
    (hr : whereHead.run (restOf s) = some (restOf (s.goto q))) (hne : restOf (s.goto q) ≠ []) : Fresh (s.goto q) := by
  have hlo := h.good.lo_pos
  refine ⟨GoodStmt_goto h.good (by omega) h2, ?_, fun h0 => absurd h0 hne⟩
  obtain ⟨w, e1, e2⟩ := run_sound _ _ _ ⟨_, 0, h.wn, rfl⟩ hr
  obtain ⟨_, _, rfl, ⟨a, rfl, ha⟩, p, _, rfl, hp, rfl⟩ := (whereHead_is w).mp e2
  obtain ⟨m, hm, hv⟩ := paren_is (by decide) hp
  have hw := h.wn
  rw [e1] at hw
  simp only [List.append_nil, List.map_append, List.map_cons, List.map_nil, hv] at hw
  rw [ha] at hw
  have hw := wn_plain_inv (t := Tag.KW_WHERE) hw (by unfold Plain; decide)
  refine wn_paren_inv (a := m) ?_ hm
  simpa using hw

theorem does_where {x : Exts} (hx : GoodExts x) {s : Strm} (h : Fresh s) (hno : ¬ Std.whereMask.Is (restOf s)) :
    ∃ r, Does x (.rule .where_stmt) s r ∧ ((∃ z, r = some z) ↔ Std.whereStmt.Is (restOf s)) := by
  have build : ∀ r, SeqSpec x ([.tok Tag.KW_WHERE, .parens Tag.HOIST [.rule .logical_expr]] ++ [.rule .assignment_stmt, .peek Tag.BAD]) s r →
      Does x (.rule .where_stmt) s r := by
    intro r hr
    exact does_rule (q := .seq Tag.SG_WHERE_STMT _) rfl rfl (does_seq hx h.good (by decide +kernel) hr)
  have hlo := h.good.lo_pos
  have hb := good_noBad h.good
  have hnest : Nested ((restOf s).map (·.token)) := ⟨_, 0, h.wn, rfl⟩
  have parts : ∀ r, (whereHead.run (restOf s) = none → r = none) →
      (∀ q, s.pos ≤ q → q ≤ s.hi → whereHead.run (restOf s) = some (restOf (s.goto q)) →
        SeqSpec x [.rule .assignment_stmt, .peek Tag.BAD] (s.goto q) r) → Does x (.rule .where_stmt) s r :=
    fun r h1 h2 => build r (seqSpec_forms (k := 20) hx _ _ s (by decide +kernel) (by decide +kernel) (by decide +kernel) h.good h1 h2)
  have hsplit : Std.whereStmt.Is (restOf s) ↔ ∃ w y, restOf s = w ++ y ∧ Std.whereMask.Is w ∧ Std.assignmentStmt.Is y := by
    constructor
    · rintro ⟨a, _, e, ha, p, y, rfl, hp, hy⟩
      refine ⟨a ++ p, y, by rw [e]; simp, ⟨a, p, rfl, ha, p, [], by simp, hp, rfl⟩, ?_⟩
      obtain ⟨y1, _, rfl, hy1, rfl⟩ := hy
      rw [List.append_nil]
      exact hy1
    · rintro ⟨_, y, e, ⟨a, _, rfl, ha, p, _, rfl, hp, rfl⟩, hy⟩
      exact ⟨a, p ++ y, by rw [e]; simp, ha, p, y, rfl, hp, y, [], by simp, hy, rfl⟩
  cases hr : whereHead.run (restOf s) with
  | none =>
    refine ⟨none, parts _ (fun _ => rfl) (fun q _ _ hq => by rw [hr] at hq; cases hq), ?_⟩
    constructor
    · rintro ⟨z, hz⟩; cases hz
    · rw [hsplit]
      rintro ⟨w, y, e, hw, _⟩
      rw [e] at hr hb
      rw [whereHead_take hb hw] at hr
      cases hr
  | some y =>
    obtain ⟨w, e1, e2⟩ := run_sound _ _ _ hnest hr
    have hw := (whereHead_is w).mp e2
    have hy : y ≠ [] := by
      rintro rfl
      rw [List.append_nil] at e1
      rw [← e1] at hw
      exact hno hw
    have hlen := restOf_length h.good
    rw [e1, List.length_append] at hlen
    have hlo2 := h.good.pos_hi
    have hq : restOf (s.goto (s.pos + w.length)) = y := by
      have h5 : (s.all.take s.hi).drop s.pos = w ++ y := e1
      show (s.all.take s.hi).drop (s.pos + w.length) = y
      rw [← List.drop_drop, h5]
      simp
    have hf : Fresh (s.goto (s.pos + w.length)) :=
      fresh_where h (by omega) (by omega) (by rw [hr, hq]) (by rw [hq]; exact hy)
    obtain ⟨r, hd, hi, hz⟩ := assign_fresh hx hf
    rw [hq] at hi
    refine ⟨r, parts r (fun h => by rw [hr] at h; cases h) (fun q h1 h2 h3 => ?_), ?_⟩
    · rw [hr] at h3
      injection h3 with h3
      rw [← hq] at h3
      have := rest_pos h.good (by omega) (by omega) (by omega) h2 h3
      subst this
      refine ⟨r, hd, id, fun q h4 h5 h6 => ?_⟩
      have hz0 := hz _ h6
      have := seqSpec_all (k := 20) (ps := [.peek Tag.BAD]) (Fs := (formsOf (toFormG plainBody 20) [.peek Tag.BAD]).getD []) (s := (s.goto (s.pos + w.length)).goto q) hx (by decide +kernel) (by decide +kernel) (by decide +kernel)
        (GoodStmt_goto hf.good (by have : s.pos + w.length ≤ q := h4
                                   show s.lo ≤ q
                                   omega) h5)
      rw [h6, hz0]
      rw [hz0] at this
      exact this
    · rw [hi, hsplit]
      constructor
      · exact fun h => ⟨w, y, e1, hw, h⟩
      · rintro ⟨w', y', e', hw', hy'⟩
        rw [e'] at hr hb
        rw [whereHead_take hb hw'] at hr
        injection hr with hr
        rwa [← hr]

/-! ### Where, with nothing behind the mask -/

/-- The parser never returns anything. -/
def Stuck (x : Exts) (p : P) (s : Strm) : Prop := ∀ n o, eval plainBody x n p s ≠ .ok o

theorem designatorEnd_back {s : Strm} (h : GoodStmt s) (he : EndsInParen s) :
    ∃ e, designatorEnd s = .ok (s.goto e) ∧ e < s.hi := by
  have hlen := h.hi_len
  have hlo := h.lo_pos
  have hhi := h.pos_hi
  have hg : GoodStream (s.goto s.hi) := by
    refine ⟨by simp; omega, by simp, by simpa using hlen, ?_⟩
    intro t ht
    exact (h.tags t.token (List.mem_map.mpr ⟨t, ht, rfl⟩)).2.1
  obtain ⟨hyes, hno⟩ := C24_open (s.goto s.hi) hg
  simp only [Strm.goto_lo, Strm.goto_pos, Strm.goto_goto] at hyes hno
  rw [designatorEnd, Strm.consumeUntilEol]
  by_cases hex : ∃ i, s.lo ≤ i ∧ s.lo < s.hi ∧ ParenPair (tagsOf s) i (s.hi - 1)
  · obtain ⟨i, hi1, hi2, hpair⟩ := hex
    rw [hyes i hi1 hi2 hpair, Res.ok_bind, if_pos rfl, Strm.putBack_ok (by simp; omega)]
    obtain ⟨mid, hj, _, _⟩ := parenPair_at.mp hpair
    clear hyes hno
    exact ⟨i, rfl, by omega⟩
  · rw [hno hex, Res.ok_bind, if_neg (by simp)]
    refine ⟨s.lo, ?_, he.1⟩
    have hends' : s.lo < s.hi ∧ (tagsOf (s.goto s.hi))[s.hi - 1]? = some Tag.TK_PARENR := he
    exact congrArg Except.ok (if_pos hends')

theorem stuck_rule {x : Exts} {r : R} {q : P} (hq : plainBody r = .comb q) {s : Strm} (h : Stuck x q s) : Stuck x (.rule r) s := by
  intro n o ho
  cases n with
  | zero => cases ho
  | succ n =>
    rw [eval, step, hq, runBody] at ho
    pbind ho with a ha
    pbind ha with b hb
    exact h n b hb

theorem stuck_alts {x : Exts} {tag : Int} {p : P} {ps : List P} {s : Strm} (h : Stuck x p s) : Stuck x (.alts tag (p :: ps)) s := by
  intro n o ho
  cases n with
  | zero => cases ho
  | succ n =>
    rw [eval, step] at ho
    pbind ho with a ha
    rw [altsLoop] at ha
    pbind ha with b hb
    exact h n b hb

theorem stuck_designator {x : Exts} {s : Strm} (h : GoodStmt s) (he : EndsInParen s) (hr : restOf s = []) :
    Stuck x (.rule .procedure_designator) s := by
  intro n o ho
  cases n with
  | zero => cases ho
  | succ n =>
    obtain ⟨e, hd, hlt⟩ := designatorEnd_back h he
    have hl := restOf_length h
    rw [hr] at hl
    simp at hl
    rw [eval, step, show plainBody .procedure_designator = .procDesignator designatorP from rfl, runBody, runDesignator, hd] at ho
    simp only [up_of_ok, PRes.ok_bind, Strm.goto_pos] at ho
    rw [Strm.mkRange, if_neg (by omega)] at ho
    cases ho

/-- What keeps a sequence from returning. -/
def StuckSeq (x : Exts) : List P → Strm → Prop
  | [], _ => False
  | p :: ps, s => Stuck x p s ∨ ∃ y, Does x p s (some y) ∧
      ∀ q, s.pos ≤ q → q ≤ s.hi → y = restOf (s.goto q) → StuckSeq x ps (s.goto q)

theorem seqLoop_stuck {x : Exts} {n : Nat} : ∀ ps s acc w, StuckSeq x ps s → seqLoop (eval plainBody x n) ps s acc ≠ .ok w := by
  intro ps
  induction ps with
  | nil => intro s acc w h; cases h
  | cons p ps ih =>
    intro s acc w h ho
    rw [seqLoop] at ho
    pbind ho with o ho1
    rcases h with h | ⟨y, hd, hk⟩
    · exact h n o ho1
    · have ha := (hd n).2 o ho1
      obtain ⟨hok, q, e1, e2, e3, e4⟩ := ha
      rw [hok, if_pos rfl, e1] at ho
      exact ih _ _ _ (hk q e2 e3 e4.symm) ho

theorem stuck_seq {x : Exts} {tag : Int} {ps : List P} {s : Strm} (h : StuckSeq x ps s) : Stuck x (.seq tag ps) s := by
  intro n o ho
  cases n with
  | zero => cases ho
  | succ n =>
    rw [eval, step] at ho
    pbind ho with a ha
    exact seqLoop_stuck _ _ _ _ h ha

theorem stuck_assignment {x : Exts} {s : Strm} (h : GoodStmt s) (he : EndsInParen s) (hr : restOf s = []) :
    Stuck x (.rule .assignment_stmt) s := by
  refine stuck_rule (q := .seq Tag.SG_ASSIGNMENT_STMT [.rule .«variable», .tok Tag.TK_EQUAL, .rule .expr,
    .peek Tag.BAD]) rfl (stuck_seq (.inl ?_))
  refine stuck_rule (q := .alts Tag.SG_VARIABLE [.rule .function_reference, .rule .designator]) rfl (stuck_alts ?_)
  refine stuck_rule (q := .seq Tag.SG_FUNCTION_REFERENCE [.rule .procedure_designator,
    .parens Tag.HOIST [.opt (.list Tag.SG_ACTUAL_ARG_SPEC_LIST (.rule .actual_arg_spec))]]) rfl (stuck_seq (.inl ?_))
  exact stuck_designator h he hr

def maskF : PForm := (toFormG plainBody 20 (.parens Tag.HOIST [.rule .logical_expr])).getD .never

theorem maskF_eq : toFormG plainBody 20 (.parens Tag.HOIST [.rule .logical_expr]) = some maskF := by decide +kernel

theorem mask_take {w u : List Tok} (hb : NoBad (w ++ u)) (h : (Form.paren .expr).Is w) : maskF.run (w ++ u) = some u := by
  refine (chk_sound (ex := []) ⟨2, true⟩ 60).1 maskF [.any] (by decide +kernel) w [] u hb ((eraseBut_nil _ _).mpr ?_) any_shas
  exact (sameForm_is (a := maskF.erase) (b := .paren .expr) (by decide +kernel) w).mpr h

theorem stuck_where {x : Exts} (hx : GoodExts x) {s : Strm} (h : Fresh s) (hm : Std.whereMask.Is (restOf s)) :
    Stuck x (.rule .where_stmt) s := by
  have hlo := h.good.lo_pos
  have hhi := h.good.pos_hi
  refine stuck_rule (q := .seq Tag.SG_WHERE_STMT [.tok Tag.KW_WHERE, .parens Tag.HOIST [.rule .logical_expr],
    .rule .assignment_stmt, .peek Tag.BAD]) rfl (stuck_seq ?_)
  have hb := good_noBad h.good
  have hend : EndsInParen s := by
    obtain ⟨_, _, e, ⟨a, rfl, ha⟩, p, _, rfl, hp, rfl⟩ := hm
    obtain ⟨m, hm, hv⟩ := paren_is (by decide) hp
    have hat : At (tagsOf s) s.pos ((restOf s).map (·.token)) := by
      rw [restOf_map]
      exact slice_at hhi (by rw [Strm.len_tags]; exact h.good.hi_len)
    have hl := restOf_length h.good
    have hl2 := congrArg List.length hv
    rw [e] at hat hl
    simp at hl hl2
    have h1 := hat (m.length + 2) (by simp [hl2])
    refine ⟨by omega, ?_⟩
    rw [show s.hi - 1 = s.pos + (m.length + 2) by omega, h1]
    simp [hv]
  obtain ⟨_, _, e, ⟨a, rfl, ha⟩, p, _, rfl, hp, rfl⟩ := hm
  rw [List.append_nil] at e
  obtain ⟨hf, hts⟩ := fresh_next h e (by rw [ha]; unfold Plain; decide)
  have tokd : Does x (.tok Tag.KW_WHERE) s ((PForm.tok Tag.KW_WHERE).run (restOf s)) :=
    does_form (k := 1) hx rfl rfl rfl h.good
  rw [e, List.cons_append, List.nil_append, PForm.run, PForm.take1, if_pos (by simp [ha])] at tokd
  refine .inr ⟨_, tokd, fun q h1 h2 h3 => ?_⟩
  have hq : q = s.pos + 1 := by
    have hl := restOf_length h.good
    rw [e] at hl
    simp at hl
    exact rest_pos h.good (by omega) h2 (by omega) (by omega) (by rw [← h3, hts]; rfl)
  subst hq
  have pard := does_form (s := s.goto (s.pos + 1)) hx maskF_eq (by decide +kernel) (by decide +kernel) hf.good
  have hb2 := good_noBad hf.good
  have hrun : maskF.run (restOf (s.goto (s.pos + 1))) = some [] := by
    rw [hts] at hb2 ⊢
    have := mask_take (w := p) (u := []) (by simpa using hb2) hp
    simpa using this
  rw [hrun] at pard
  refine .inr ⟨_, pard, fun q h4 h5 h6 => .inl ?_⟩
  have h4 : s.pos + 1 ≤ q := h4
  exact stuck_assignment (GoodStmt_goto hf.good (by show s.lo ≤ q; omega) h5) hend h6.symm

/-- A parser that never returns ends in undefined behaviour. -/
theorem stuck_ub {x : Exts} (hx : GoodExts x) (hf : x.Forward) {tag : Int} {r : R}
    (hr : dispatchTable.find? (fun q => q.1 == tag) = some (tag, r)) (hi : r ≠ .image_selector) {s : Strm}
    (hs : GoodStmt s) (hn : NoImages s.all) (hd : Stuck x (.rule r) s) : DispatchReturns x tag s (.error .ub) := by
  rw [dispatch_iff, hr]
  obtain ⟨out, hout, _⟩ := C52_terminates x hf r s
  cases out with
  | error e =>
    obtain ⟨he, _⟩ := returns_safe hx hs hout
    rw [← he]
    exact hout
  | ok w =>
    exfalso
    obtain ⟨n, h⟩ := hout.eval
    rcases evalRule_plain (n := n) hx hi hs hn with h1 | h1
    · rw [h] at h1; cases h1
    · rw [h] at h1
      rw [evalRule] at h1
      obtain ⟨tree, t⟩ := w
      cases tree with
      | none =>
        refine hd (n + 1) ⟨none, false, t.goto s.pos⟩ ?_
        rw [eval, step, ← h1]
        rfl
      | some m =>
        refine hd (n + 1) ⟨some m, true, t⟩ ?_
        rw [eval, step, ← h1]
        rfl

end SP
end FLPR
