import Verif.StmtParser.IoMain
import Verif.StmtParser.VarProps
/-!
# C81: print, write, inquire and read statements

On statements without image selectors.
-/

namespace FLPR
namespace SP
open Spec

/-! ### The last parentheses -/

theorem lastPair_none {s : Strm} (h : WholeStmt s) (hl : ((restOf s).map (·.token)).getLast? ≠ some Tag.TK_PARENR) : LastPair s 0 := by
  refine .inl ⟨rfl, ?_⟩
  rintro ⟨h1, h2⟩
  apply hl
  have hlen := restOf_length (whole_fresh h).good
  have hst := h.start
  have hat : At (tagsOf s) s.pos ((restOf s).map (·.token)) := by
    rw [restOf_map]
    exact slice_at h.pos_hi (by rw [Strm.len_tags]; exact h.hi_len)
  have h3 := hat (s.hi - 1 - s.pos) (by rw [List.length_map]; omega)
  rw [show s.pos + (s.hi - 1 - s.pos) = s.hi - 1 by omega, h2] at h3
  rw [List.getLast?_eq_getElem?, List.getElem?_eq_getElem (by rw [List.length_map]; omega), h3]
  exact congrArg some (by congr 1; rw [List.length_map]; omega)

/-- The last pair of parentheses does not go beyond what is properly nested at the end. -/
theorem last_le {s : Strm} {k : Nat} (h : WholeStmt s) (hk : LastPair s k) {p r : List Tok} (e : restOf s = p ++ r) (hne : r ≠ [])
    (hr : WellNested (r.map (·.token))) : k ≤ r.length := by
  have hg := (whole_fresh h).good
  obtain ⟨u, v, rfl, hv⟩ := split_exists hr
  rcases hv with ⟨rfl, hl⟩ | ⟨m, _, hm, hv⟩
  · rw [List.append_nil] at e hl hne
    have : k = 0 := by
      refine lastPair_unique hg hk (lastPair_none h ?_)
      rw [e, List.map_append, List.getLast?_append_of_ne_nil _ (by simpa using hne)]
      exact hl
    omega
  · have := lastPair_unique hg hk (lastPair_group hg (pre := p ++ u) (by rw [e]; simp) hm hv)
    rw [this]
    simp

theorem last_group {s : Strm} {k : Nat} (h : WholeStmt s) (hk : LastPair s k) {p w : List Tok} (e : restOf s = p ++ w)
    (hw : IsGroup (w.map (·.token))) : k = w.length := by
  obtain ⟨m, hm, hv⟩ := hw
  exact lastPair_unique (whole_fresh h).good hk (lastPair_group (whole_fresh h).good e hm hv)

theorem listed_last {its : List (List Tok)} {ts w : List Tok} (h : Listed its ts) (hw : its.getLast? = some w) : ∃ p, ts = p ++ w := by
  induction h with
  | one v => rw [List.getLast?_singleton] at hw; injection hw with hw; subst hw; exact ⟨[], rfl⟩
  | cons v c _ hl ih =>
    rw [List.getLast?_cons_of_ne_nil (listed_ne hl)] at hw
    obtain ⟨p, rfl⟩ := ih hw
    exact ⟨v ++ c :: p, by simp⟩

/-! ### The end of a statement -/

def tailV (L : VForm) : VForm := .seqs [.alt L (.base .eps), .base (.peek Tag.BAD)]

theorem tail_exec {k : Nat} {L : VForm} {l : List Tok} {A : Act} (hA : A = .stuck ∨ A = .acts (some [])) (h : L.exec k l = A) :
    (tailV L).exec k l = A := by
  rw [tailV, VForm.seqs, VForm.exec, VForm.exec, h]
  rcases hA with rfl | rfl <;> rfl

theorem tail_empty {k : Nat} {L : VForm} (h : L.exec k [] = .acts none) : (tailV L).exec k [] = .acts (some []) := by
  rw [tailV, VForm.seqs, VForm.exec, VForm.exec, h]
  rfl

theorem tail_sound {k : Nat} {L : VForm} {l z : List Tok} (hb : NoBad l) (hs : ∀ z, L.exec k l = .acts (some z) → ∃ w, l = w ++ z)
    (h : (tailV L).exec k l = .acts (some z)) : L.exec k l = .acts (some []) ∨ l = [] := by
  obtain ⟨q, e1, e2⟩ := exec_seq_some h
  obtain ⟨q2, e3, _⟩ := exec_seq_some e2
  have hq : NoBad q → q = [] := by
    intro hq
    injection e3 with e3
    rw [PForm.run] at e3
    split at e3
    · next hh =>
      cases q with
      | nil => rfl
      | cons c q => exact absurd hh (hq c (by simp))
    · cases e3
  rw [VForm.exec] at e1
  cases he : L.exec k l with
  | stuck => rw [he] at e1; cases e1
  | acts r =>
    rw [he] at e1
    cases r with
    | none =>
      injection e1 with e1; injection e1 with e1; subst e1
      exact .inr (hq hb)
    | some r =>
      injection e1 with e1; injection e1 with e1; subst e1
      obtain ⟨w, e⟩ := hs r he
      rw [hq (by rw [e] at hb; exact hb.right)]
      exact .inl rfl

theorem no_items {k n : Nat} : (listV (outputV (idoV n))).exec k [] = .acts none := by
  have h : (outputV (idoV n)).exec k [] = .acts none := by
    rw [outputV, VForm.alts, VForm.exec, ido_other (by decide)]
    rfl
  rw [listV, VForm.seqs, VForm.exec, h]
  rfl

theorem paren_run {w u : List Tok} (h : IsGroup (w.map (·.token))) : PForm.group.run (w ++ u) = some u := by
  obtain ⟨a, ha, e⟩ := h
  cases w with
  | nil => cases e
  | cons o w =>
    injection e with e1 e2
    rw [PForm.run, List.cons_append, PForm.runGroupL, if_pos e1, List.map_append, e2, List.append_assoc, List.singleton_append, scanP_close ha]
    have hl := congrArg List.length e2
    simp only [List.length_map, List.length_append, List.length_singleton] at hl
    rw [← hl, List.drop_left]

theorem tok_run {a : Tok} {t : Int} (h : a.token = t) (u : List Tok) : (PForm.tok t).run (a :: u) = some u := by
  rw [PForm.run, PForm.take1, if_pos (by simp [h])]

/-- How a statement with output items is parsed. -/
structure OutRow (tag : Int) (alone front : Form) (r : R) (F : VForm → VForm) : Prop where
  disp : dispatchTable.find? (fun q => q.1 == tag) = some (tag, r)
  image : r ≠ .image_selector
  form : ∀ g, toW g 40 (.rule r) = some (F g)
  items : ∀ (k n : Nat) (p l : List Tok) (A : Act), NoBad (p ++ l) → front.Is p → (A = .stuck ∨ A = .acts (some [])) →
    (listV (outputV (idoV n))).exec k l = A → (F (idoV n)).exec k (p ++ l) = A
  bare : ∀ (k n : Nat) (p : List Tok), NoBad p → alone.Is p → (F (idoV n)).exec k p = .acts (some [])
  sound : ∀ (k n : Nat) (ts z : List Tok), NoBad ts → Nested (ts.map (·.token)) → FrontOk k ts → (F (idoV n)).exec k ts = .acts (some z) →
    alone.Is ts ∨ ∃ p l, ts = p ++ l ∧ front.Is p ∧ (listV (outputV (idoV n))).exec k l = .acts (some [])

def groupV (t : Int) (g : VForm) : VForm := .seq (.base (.tok t)) (.seq (.base .group) (tailV (listV (outputV g))))

theorem row_group {tag t : Int} {r : R} (h1 : dispatchTable.find? (fun q => q.1 == tag) = some (tag, r)) (h2 : r ≠ .image_selector)
    (h3 : ∀ g, toW g 40 (.rule r) = some (groupV t g)) :
    OutRow tag (.seqs [.word t, .group]) (.seqs [.word t, .group]) r (groupV t) := by
  have go : ∀ (k n : Nat) (p l : List Tok), (Form.seqs [.word t, .group]).Is p →
      (groupV t (idoV n)).exec k (p ++ l) = (tailV (listV (outputV (idoV n)))).exec k l := by
    rintro k n p l ⟨_, _, rfl, ⟨a, rfl, ha⟩, b, _, rfl, hb, rfl⟩
    rw [List.append_nil, List.append_assoc, List.singleton_append, groupV, exec_base_some (tok_run ha _), exec_base_some (paren_run hb)]
  refine ⟨h1, h2, h3, ?_, ?_, ?_⟩
  · intro k n p l A _ hp hA h
    rw [go k n p l hp]
    exact tail_exec hA h
  · intro k n p _ hp
    have := go k n p [] hp
    rw [List.append_nil] at this
    rw [this]
    exact tail_empty no_items
  · intro k n ts z hb hn hf h
    obtain ⟨q, e1, h1⟩ := exec_seq_some h
    obtain ⟨a, rfl, ha⟩ := exec_tok_some e1
    have hn := Nested.suffix (a := [a.token]) hn
    have hf := frontOk_suffix (w := [a]) hf
    have hb : NoBad q := fun b h => hb b (by simp [h])
    obtain ⟨q2, e2, h2⟩ := exec_seq_some h1
    injection e2 with e2
    obtain ⟨w, rfl, hw⟩ := run_sound _ _ _ hn e2
    have hn : Nested ((w ++ q2).map (·.token)) := hn
    rw [List.map_append] at hn
    have hp : (Form.seqs [.word t, .group]).Is (a :: w) := ⟨[a], w, rfl, ⟨a, rfl, ha⟩, w, [], by simp, hw, rfl⟩
    rcases tail_sound hb.right (fun z hz => by
      obtain ⟨_, w, e, _⟩ := items_sound hn.suffix (frontOk_suffix hf) hz
      exact ⟨w, e⟩) h2 with h | rfl
    · exact .inr ⟨a :: w, q2, rfl, hp, h⟩
    · left; rw [List.append_nil]; exact hp

def formatF : PForm := .alt (.seq .expr (.seq (.notPeek Tag.TK_EQUAL) .eps)) (.alt (.tok Tag.TK_ASTERISK) .never)

def printV (g : VForm) : VForm :=
  .seq (.base (.tok Tag.KW_PRINT)) (.seq (.base formatF) (tailV (.seqs [.base (.tok Tag.TK_COMMA), listV (outputV g)])))

theorem format_run {w u : List Tok} (hb : NoBad w) (hw : Std.format.Is w) (hu : u = [] ∨ PForm.headTag u = Tag.TK_COMMA) :
    formatF.run (w ++ u) = some u := by
  have hne : PForm.headTag u ≠ Tag.TK_EQUAL := by
    rcases hu with rfl | h
    · decide
    · rw [h]; decide
  have hst : exprStop (PForm.headTag u) = true := by
    rcases hu with rfl | h
    · decide
    · rw [h]; decide
  rcases hw with hw | ⟨a, rfl, ha⟩ | hw
  · have hr : PForm.expr.run (w ++ u) = some u := runExprL_complete hb hw hst
    rw [formatF, PForm.run, PForm.run, hr, Option.bind_some, PForm.run,
      show (PForm.notPeek Tag.TK_EQUAL).run u = some u by rw [PForm.run, if_neg hne]]
    rfl
  · have hr : PForm.expr.run ([a] ++ u) = none := by
      rw [PForm.run, PForm.runExprL, if_pos (.inl ha)]
    rw [formatF, PForm.run, PForm.run, hr, Option.bind_none]
    show (match (PForm.tok Tag.TK_ASTERISK).run (a :: u) with | some r => some r | none => none) = some u
    rw [tok_run ha]
  · exact absurd hw id

theorem row_print : OutRow Tag.SG_PRINT_STMT (.seqs [.word Tag.KW_PRINT, Std.format]) (.seqs [.word Tag.KW_PRINT, Std.format, Std.comma])
    .print_stmt printV := by
  refine ⟨by decide +kernel, by decide, fun g => rfl, ?_, ?_, ?_⟩
  · rintro k n p l A hb ⟨_, _, rfl, ⟨a, rfl, ha⟩, w, _, rfl, hw, _, _, rfl, ⟨c, rfl, hc⟩, rfl⟩ hA h
    rw [show [a] ++ (w ++ ([c] ++ [])) ++ l = a :: (w ++ (c :: l)) by simp] at hb ⊢
    rw [printV, exec_base_some (tok_run ha _), exec_base_some (format_run (fun b h => hb b (by simp [h])) hw (.inr (show PForm.headTag (c :: l) = _ from hc)))]
    refine tail_exec hA ?_
    rw [VForm.seqs, exec_base_some (tok_run hc _), VForm.seqs, VForm.exec, h]
    rcases hA with rfl | rfl <;> rfl
  · rintro k n p hb ⟨_, _, rfl, ⟨a, rfl, ha⟩, w, _, rfl, hw, rfl⟩
    have := format_run (w := w) (u := []) (fun b h => hb b (by simp [h])) hw (.inl rfl)
    rw [List.append_nil] at this
    rw [List.append_nil, List.singleton_append, printV, exec_base_some (tok_run ha _), exec_base_some this]
    exact tail_empty rfl
  · intro k n ts z hb hn hf h
    obtain ⟨q, e1, h1⟩ := exec_seq_some h
    obtain ⟨a, rfl, ha⟩ := exec_tok_some e1
    have hn := Nested.suffix (a := [a.token]) hn
    have hf := frontOk_suffix (w := [a]) hf
    have hb : NoBad q := fun b h => hb b (by simp [h])
    obtain ⟨q2, e2, h2⟩ := exec_seq_some h1
    injection e2 with e2
    obtain ⟨w, rfl, hw⟩ := run_sound _ _ _ hn e2
    have hw : Std.format.Is w := (sameForm_is (a := prune formatF.erase) (b := Std.format) (by decide +kernel) w).mp ((prune_is _ _).mpr hw)
    have hn : Nested ((w ++ q2).map (·.token)) := hn
    rw [List.map_append] at hn
    have hn := hn.suffix
    have hf := frontOk_suffix hf
    rcases tail_sound hb.right (fun z hz => by
      obtain ⟨q3, e3, hz1⟩ := exec_seq_some hz
      obtain ⟨c, rfl, _⟩ := exec_tok_some e3
      obtain ⟨q4, e4, hz⟩ := exec_seq_some hz1
      injection hz with hz; injection hz with hz; subst hz
      obtain ⟨_, w, e, _⟩ := items_sound (Nested.suffix (a := [c.token]) hn) (frontOk_suffix (w := [c]) hf) e4
      exact ⟨c :: w, by rw [e]; rfl⟩) h2 with h | rfl
    · right
      obtain ⟨q3, e3, hz1⟩ := exec_seq_some h
      obtain ⟨c, rfl, hc⟩ := exec_tok_some e3
      obtain ⟨q4, e4, hz⟩ := exec_seq_some hz1
      injection hz with hz; injection hz with hz; subst hz
      exact ⟨a :: (w ++ [c]), q3, by simp, ⟨[a], _, rfl, ⟨a, rfl, ha⟩, w, _, rfl, hw, [c], [], rfl, ⟨c, rfl, hc⟩, rfl⟩, e4⟩
    · left; rw [List.append_nil]; exact ⟨[a], w, rfl, ⟨a, rfl, ha⟩, w, [], by simp, hw, rfl⟩

theorem out_rows : ∀ row ∈ Std.outputStmts, ∃ r F, OutRow row.1 row.2.1 row.2.2 r F := by
  intro row hrow
  simp only [Std.outputStmts, List.mem_cons, List.not_mem_nil, or_false] at hrow
  rcases hrow with rfl | rfl | rfl
  · exact ⟨_, _, row_print⟩
  · exact ⟨_, _, row_group (r := .write_stmt) (by decide +kernel) (by decide) (fun g => rfl)⟩
  · exact ⟨_, _, row_group (r := .inquire_stmt) (by decide +kernel) (by decide) (fun g => rfl)⟩

/-! ### C81 -/

/-- C81: a print, write or inquire statement that is recognised has the form of the standard, and the last of its
output items is not merely something in parentheses. -/
theorem C81_output_sound (x : Exts) (hx : GoodExts x) (hf : x.Forward) (s : Strm) (hs : WholeStmt s) (hn : NoImages s.all) :
    ∀ row ∈ Std.outputStmts, Recognised x row.1 s →
      row.2.1.Is (restOf s) ∨ ∃ its, Outputs row.2.2 its (restOf s) ∧ ¬ LastInParens its := by
  intro row hrow hrec
  obtain ⟨r, F, hR⟩ := out_rows row hrow
  obtain ⟨k, hk⟩ := lastPair_exists hs
  have hg := (whole_fresh hs).good
  have ha := acts_wholeW hx hs hR.form hk
  cases he : (F (idoV ((restOf s).length + 1))).exec k (restOf s) with
  | stuck =>
    exfalso
    rw [he] at ha
    obtain ⟨m, t, h⟩ := hrec
    have := stuck_ub hx hf hR.disp hR.image hg hn ha
    rw [dispatch_iff, hR.disp] at this h
    cases h.unique this
  | acts q =>
    rw [he] at ha
    obtain ⟨z, rfl⟩ := (recognised_does hx hf hR.disp hR.image hg hn ha).1.mp hrec
    rcases hR.sound _ _ _ _ (good_noBad hg) (good_nested hg) (frontOk_whole hs hk) he with h | ⟨p, l, e, hp, hl⟩
    · exact .inl h
    · right
      have hn2 := good_nested hg
      have hf2 := frontOk_whole hs hk
      rw [e] at hf2
      rw [e, List.map_append] at hn2
      obtain ⟨its, w, e2, hl, hi, hlast⟩ := items_sound hn2.suffix (frontOk_suffix hf2) hl
      rw [List.append_nil] at e2
      subst e2
      refine ⟨its, ⟨p, l, e, hp, hl, hi⟩, ?_⟩
      rintro ⟨v, hv, hgr⟩
      have h1 := hlast v hv
      obtain ⟨p', e3⟩ := listed_last hl hv
      rw [List.append_nil, item_last hgr (last_group hs hk (p := p ++ p') (by rw [e, e3]; simp) hgr)] at h1
      cases h1

/-- C81: such a statement is recognised if the last of its output items is not merely something in parentheses
(or if it has none). -/
theorem C81_output_complete (x : Exts) (hx : GoodExts x) (hf : x.Forward) (s : Strm) (hs : WholeStmt s) (hn : NoImages s.all) :
    ∀ row ∈ Std.outputStmts, (row.2.1.Is (restOf s) → Recognised x row.1 s) ∧
      ∀ its, Outputs row.2.2 its (restOf s) → (∀ w ∈ its, NoDoInFront w) → ¬ LastInParens its → Recognised x row.1 s := by
  intro row hrow
  obtain ⟨r, F, hR⟩ := out_rows row hrow
  obtain ⟨k, hk⟩ := lastPair_exists hs
  have hg := (whole_fresh hs).good
  have ha := acts_wholeW hx hs hR.form hk
  have hb := good_noBad hg
  suffices key : (F (idoV ((restOf s).length + 1))).exec k (restOf s) = .acts (some []) → Recognised x row.1 s by
    refine ⟨fun h => key (hR.bare _ _ _ hb h), ?_⟩
    rintro its ⟨p, l, e, hp, hl, hi⟩ hd hlast
    have hn2 := good_nested hg
    have hf2 := frontOk_whole hs hk
    rw [e] at hf2 hb
    rw [e, List.map_append] at hn2
    refine key ?_
    generalize (restOf s).length + 1 = n
    rw [e]
    refine hR.items k n p l _ hb hp (.inr rfl) ?_
    refine items_exec hl hb.right hn2.suffix (frontOk_suffix hf2) hi hd (fun p' r e' hne hr => ?_) (.inr rfl) ?_
    · exact last_le hs hk (p := p ++ p') (by rw [e, e']; simp) hne hr
    · intro w hw
      obtain ⟨p', e3⟩ := listed_last hl hw
      have hw' : w ∈ its := List.mem_of_getLast? hw
      have := item_exec (n := n) (k := k) (w := w) (u := []) (fun a ha => hb a (by rw [e3]; simp [ha])) ?_ ?_ (hi w hw') (by decide) (hd w hw') ?_
      · rwa [List.append_nil] at this
      · have := hn2.suffix
        rw [e3, List.map_append] at this
        rw [List.append_nil]
        exact this.suffix
      · have := frontOk_suffix hf2
        rw [e3] at this
        rw [List.append_nil]
        exact frontOk_suffix this
      · rintro o m c r rfl ho hc hm hr
        rw [List.append_nil]
        by_cases hne : r = []
        · subst hne
          exact absurd ⟨_, hw, m.map (·.token), hm, by simp [ho, hc]⟩ hlast
        · exact last_le hs hk (p := p ++ p' ++ o :: (m ++ [c])) (by rw [e, e3]; simp) hne hr
  intro he
  rw [he] at ha
  exact (recognised_does hx hf hR.disp hR.image hg hn ha).1.mpr ⟨[], rfl⟩

/-- Where the last output item is something in parentheses, parsing is undefined, whether it is an implied-do loop
or an expression: `print *, (a(i), i=1,3)`, `write(*,*) n, (x + y)`.  (`output_item` tries `io_implied_do`, and
this one calls `variable` behind the last opening parenthesis of the statement.) -/
theorem C81_violation_output (x : Exts) (hx : GoodExts x) (hf : x.Forward) (s : Strm) (hs : WholeStmt s) (hn : NoImages s.all) :
    ∀ row ∈ Std.outputStmts, ∀ its, Outputs row.2.2 its (restOf s) → (∀ w ∈ its, NoDoInFront w) → LastInParens its →
      DispatchReturns x row.1 s (.error .ub) := by
  rintro row hrow its ⟨p, l, e, hp, hl, hi⟩ hd ⟨w, hw, hgr⟩
  obtain ⟨r, F, hR⟩ := out_rows row hrow
  obtain ⟨k, hk⟩ := lastPair_exists hs
  have hg := (whole_fresh hs).good
  have ha := acts_wholeW hx hs hR.form hk
  have hb := good_noBad hg
  have hn2 := good_nested hg
  have hf2 := frontOk_whole hs hk
  have hst : (F (idoV ((restOf s).length + 1))).exec k (restOf s) = .stuck := by
    rw [e] at hf2 hb
    rw [e, List.map_append] at hn2
    generalize (restOf s).length = n
    rw [e]
    refine hR.items k (n + 1) p l _ hb hp (.inl rfl) ?_
    refine items_exec hl hb.right hn2.suffix (frontOk_suffix hf2) hi hd (fun p' r e' hne hr => ?_) (.inl rfl) ?_
    · exact last_le hs hk (p := p ++ p') (by rw [e, e']; simp) hne hr
    · intro v hv
      rw [hw] at hv
      injection hv with hv; subst hv
      obtain ⟨p', e3⟩ := listed_last hl hw
      exact item_last hgr (last_group hs hk (p := p ++ p') (by rw [e, e3]; simp) hgr)
  rw [hst] at ha
  exact stuck_ub hx hf hR.disp hR.image hg hn ha

/-! ### Read statements -/

def inputsV (g : VForm) : VForm := listV (inputV g)

def readV (g : VForm) : VForm :=
  .seq (.base (.tok Tag.KW_READ)) (.seq (.alt (.seqs [.base .group, .alt (inputsV g) (.base .eps)])
    (.alt (.seqs [.base formatF, .alt (.seqs [.base (.tok Tag.TK_COMMA), inputsV g]) (.base .eps)]) (.base .never))) (.seqs [.base (.peek Tag.BAD)]))

theorem inputs_none {k n : Nat} (hk : 0 < k) : (inputsV (idoV n)).exec k [] = .stuck := by
  have h : (inputV (idoV n)).exec k [] = .stuck := by
    rw [inputV, VForm.alts, VForm.exec, ido_other (by decide), elseA, VForm.alts, VForm.exec, VForm.exec, varL, if_pos (by simpa using hk)]
    rfl
  rw [inputsV, listV, VForm.seqs, VForm.exec, h]
  rfl

theorem inputs_last {k n : Nat} {w : List Tok} (hw : IsGroup (w.map (·.token))) (hk : k = w.length) :
    (inputsV (idoV (n + 1))).exec k w = .stuck := by
  obtain ⟨m, _, e⟩ := hw
  cases w with
  | nil => cases e
  | cons o ts =>
    injection e with e _
    have h : (inputV (idoV (n + 1))).exec k (o :: ts) = .stuck := by
      rw [inputV, VForm.alts, VForm.exec, ido_last e (by rw [hk]; simp)]
      rfl
    rw [inputsV, listV, VForm.seqs, VForm.exec, h]
    rfl

theorem read_group {k n : Nat} {a : Tok} {g l : List Tok} (ha : a.token = Tag.KW_READ) (hg : IsGroup (g.map (·.token)))
    (h : (inputsV (idoV n)).exec k l = .stuck) : (readV (idoV n)).exec k (a :: (g ++ l)) = .stuck := by
  rw [readV, exec_base_some (tok_run ha _), exec_seq, VForm.exec, VForm.seqs, exec_base_some (paren_run hg), VForm.seqs, exec_seq, VForm.exec, h]
  rfl

theorem read_format {k n : Nat} {a c : Tok} {f l : List Tok} (ha : a.token = Tag.KW_READ) (hb : NoBad f) (hf : Std.format.Is f)
    (hh : (f.head?.map (·.token)) ≠ some Tag.TK_PARENL) (hc : c.token = Tag.TK_COMMA)
    (h : (inputsV (idoV n)).exec k l = .stuck) : (readV (idoV n)).exec k (a :: (f ++ c :: l)) = .stuck := by
  have hg : PForm.group.run (f ++ c :: l) = none := by
    cases f with
    | nil => exact runGroupL_fails (by rw [hc]; decide)
    | cons b f => exact runGroupL_fails (fun e => hh (congrArg some e))
  have hi : (VForm.seqs [.base (.tok Tag.TK_COMMA), inputsV (idoV n)]).exec k (c :: l) = .stuck := by
    rw [VForm.seqs, exec_base_some (tok_run hc _), VForm.seqs, exec_seq, h]
    rfl
  rw [readV, exec_base_some (tok_run ha _), exec_seq, VForm.exec, VForm.seqs, exec_base_none hg, elseA, VForm.exec, VForm.seqs,
    exec_base_some (format_run hb hf (.inr (show PForm.headTag (c :: l) = _ from hc))), VForm.seqs, exec_seq,
    show ((VForm.seqs [.base (.tok Tag.TK_COMMA), inputsV (idoV n)]).alt (.base .eps)).exec k (c :: l) = .stuck by rw [VForm.exec, hi]; rfl]
  rfl

theorem read_ub {x : Exts} (hx : GoodExts x) (hf : x.Forward) {s : Strm} (hs : WholeStmt s) (hn : NoImages s.all) {k : Nat} (hk : LastPair s k)
    (he : (readV (idoV ((restOf s).length + 1))).exec k (restOf s) = .stuck) : DispatchReturns x Tag.SG_READ_STMT s (.error .ub) := by
  have ha := acts_wholeW hx hs (r := .read_stmt) (F := readV) (fun g => rfl) hk
  rw [he] at ha
  exact stuck_ub hx hf (by decide +kernel) (by decide) (whole_fresh hs).good hn ha

/-- Parsing a read statement without input items, such as `read(5, *)`, is undefined. -/
theorem C81_violation_read_nothing (x : Exts) (hx : GoodExts x) (hf : x.Forward) (s : Strm) (hs : WholeStmt s) (hn : NoImages s.all)
    (h : (Form.seqs [.word Tag.KW_READ, .group]).Is (restOf s)) : DispatchReturns x Tag.SG_READ_STMT s (.error .ub) := by
  obtain ⟨k, hk⟩ := lastPair_exists hs
  obtain ⟨_, _, e, ⟨a, rfl, ha⟩, g, _, rfl, hg, rfl⟩ := h
  rw [List.append_nil] at e
  have h1 := last_group hs hk e hg
  refine read_ub hx hf hs hn hk ?_
  generalize (restOf s).length + 1 = n
  rw [e]
  have := read_group (n := n) (l := []) ha hg (inputs_none (k := k) (by
    obtain ⟨m, _, e⟩ := hg
    rw [h1, ← List.length_map (f := (·.token)), e]
    simp))
  rwa [List.append_nil] at this

/-- Parsing a read statement that reads into one implied-do loop, such as `read(5, *) (a(i), i=1,3)`, is
undefined. -/
theorem C81_violation_read_loop (x : Exts) (hx : GoodExts x) (hf : x.Forward) (s : Strm) (hs : WholeStmt s) (hn : NoImages s.all)
    (p w : List Tok) (e : restOf s = p ++ w) (hp : Std.ReadFront p) (hw : IsGroup (w.map (·.token))) :
    DispatchReturns x Tag.SG_READ_STMT s (.error .ub) := by
  obtain ⟨k, hk⟩ := lastPair_exists hs
  have hb := good_noBad (whole_fresh hs).good
  have h1 := last_group hs hk e hw
  refine read_ub hx hf hs hn hk ?_
  generalize (restOf s).length = n
  rw [e] at hb ⊢
  have hl := inputs_last (n := n) hw h1
  rcases hp with ⟨_, _, rfl, ⟨a, rfl, ha⟩, g, _, rfl, hg, rfl⟩ | ⟨a, f, c, rfl, ha, hc, hff, hh⟩
  · have := read_group ha hg hl
    simpa using this
  · have := read_format ha (fun b h => hb b (by simp [h])) hff hh hc hl
    simpa using this

/-! ### Examples -/

/-- Nothing stands behind the first parentheses of a sole group. -/
theorem noDo_group {w : List Tok} (h : IsGroup (w.map (·.token))) : NoDoInFront w := by
  rintro o m c r rfl ho hc hm hr
  exfalso
  obtain ⟨a, ha, e⟩ := h
  simp only [List.map_cons, List.map_append] at e
  injection e with _ e
  rw [hc] at e
  have h1 := scanP_close (rest := r.map (·.token)) hm
  have h2 := scanP_close (rest := []) ha
  rw [e] at h1
  rw [h1] at h2
  have h3 := congrArg List.length e
  simp only [List.length_append, List.length_cons, List.length_map, List.length_nil] at h3
  rw [List.length_map] at h2
  have : r.length = 0 := by omega
  exact hr (List.length_eq_zero_iff.mp this)

/-- `write(*, *) a, (b)*c` -/
def exWrite : List Int := [Tag.KW_WRITE, Tag.TK_PARENL, Tag.TK_ASTERISK, Tag.TK_COMMA, Tag.TK_ASTERISK, Tag.TK_PARENR, Tag.TK_NAME,
  Tag.TK_COMMA, Tag.TK_PARENL, Tag.TK_NAME, Tag.TK_PARENR, Tag.TK_ASTERISK, Tag.TK_NAME]

theorem exWrite_whole : WholeStmt (lineOf exWrite) := by
  refine wholeStmt_of (goodTags_of (by decide +kernel)) (.plain (plainOf (by decide)) ?_)
  refine .paren (a := [Tag.TK_ASTERISK, Tag.TK_COMMA, Tag.TK_ASTERISK]) (b := [Tag.TK_NAME, Tag.TK_COMMA, Tag.TK_PARENL, Tag.TK_NAME,
    Tag.TK_PARENR, Tag.TK_ASTERISK, Tag.TK_NAME]) (.plain (plainOf (by decide)) <| .plain (plainOf (by decide)) <| .plain (plainOf (by decide)) .nil) ?_
  refine .plain (plainOf (by decide)) <| .plain (plainOf (by decide)) ?_
  exact .paren (a := [Tag.TK_NAME]) (b := [Tag.TK_ASTERISK, Tag.TK_NAME]) (.plain (plainOf (by decide)) .nil)
    (.plain (plainOf (by decide)) <| .plain (plainOf (by decide)) .nil)

/-- `write(*, *) a, (b)*c` is recognised, and C81 says that it has the form of the standard. -/
example : Recognised noExts Tag.SG_WRITE_STMT (lineOf exWrite) ∧
    ((Form.seqs [.word Tag.KW_WRITE, .group]).Is (restOf (lineOf exWrite)) ∨
      ∃ its, Outputs (.seqs [.word Tag.KW_WRITE, .group]) its (restOf (lineOf exWrite)) ∧ ¬ LastInParens its) := by
  have h : Recognised noExts Tag.SG_WRITE_STMT (lineOf exWrite) := recognised_of (r := .write_stmt) (by decide +kernel) (by decide +kernel)
  exact ⟨h, C81_output_sound noExts goodExts_none forward_none _ exWrite_whole (noImages_of (by decide +kernel))
    (Tag.SG_WRITE_STMT, .seqs [.word Tag.KW_WRITE, .group], .seqs [.word Tag.KW_WRITE, .group]) (by simp [Std.outputStmts]) h⟩

/-- `print *` has the form without items, so C81 says that it is recognised. -/
example : Recognised noExts Tag.SG_PRINT_STMT (lineOf [Tag.KW_PRINT, Tag.TK_ASTERISK]) := by
  refine (C81_output_complete noExts goodExts_none forward_none _ ?_ (noImages_of (by decide +kernel))
    (Tag.SG_PRINT_STMT, .seqs [.word Tag.KW_PRINT, Std.format], .seqs [.word Tag.KW_PRINT, Std.format, Std.comma]) (by simp [Std.outputStmts])).1 ?_
  · exact wholeStmt_of (goodTags_of (by decide +kernel)) (.plain (plainOf (by decide)) <| .plain (plainOf (by decide)) .nil)
  · exact ⟨[tokOf Tag.KW_PRINT], [tokOf Tag.TK_ASTERISK], rfl, ⟨_, rfl, rfl⟩, [tokOf Tag.TK_ASTERISK], [], rfl, .inr (.inl ⟨_, rfl, rfl⟩), rfl⟩

/-- `print *, (a, i=1)` -/
def exPrint : List Int := [Tag.KW_PRINT, Tag.TK_ASTERISK, Tag.TK_COMMA, Tag.TK_PARENL, Tag.TK_NAME, Tag.TK_COMMA, Tag.TK_NAME, Tag.TK_EQUAL,
  Tag.SG_INT_LITERAL_CONSTANT, Tag.TK_PARENR]

/-- The whole of it is one item in parentheses, and C81 says that parsing it is undefined. -/
example : DispatchReturns noExts Tag.SG_PRINT_STMT (lineOf exPrint) (.error .ub) := by
  have hin : WellNested [Tag.TK_NAME, Tag.TK_COMMA, Tag.TK_NAME, Tag.TK_EQUAL, Tag.SG_INT_LITERAL_CONSTANT] :=
    .plain (plainOf (by decide)) <| .plain (plainOf (by decide)) <| .plain (plainOf (by decide)) <| .plain (plainOf (by decide)) <|
      .plain (plainOf (by decide)) .nil
  have hgr : IsGroup (Tag.TK_PARENL :: ([Tag.TK_NAME, Tag.TK_COMMA, Tag.TK_NAME, Tag.TK_EQUAL, Tag.SG_INT_LITERAL_CONSTANT] ++ [Tag.TK_PARENR])) :=
    ⟨_, hin, rfl⟩
  have hw : WholeStmt (lineOf exPrint) := by
    refine wholeStmt_of (goodTags_of (by decide +kernel)) (.plain (plainOf (by decide)) <| .plain (plainOf (by decide)) <| .plain (plainOf (by decide)) ?_)
    exact .paren hin .nil
  have hwi : WellNested (Tag.TK_PARENL :: ([Tag.TK_NAME, Tag.TK_COMMA, Tag.TK_NAME, Tag.TK_EQUAL, Tag.SG_INT_LITERAL_CONSTANT] ++ [Tag.TK_PARENR])) :=
    .paren (b := []) hin .nil
  refine C81_violation_output noExts goodExts_none forward_none _ hw (noImages_of (by decide +kernel))
    (Tag.SG_PRINT_STMT, .seqs [.word Tag.KW_PRINT, Std.format], .seqs [.word Tag.KW_PRINT, Std.format, Std.comma]) (by simp [Std.outputStmts])
    [(exPrint.drop 3).map tokOf] ⟨(exPrint.take 3).map tokOf, (exPrint.drop 3).map tokOf, rfl, ?_, .one _, ?_⟩ ?_ ⟨_, rfl, hgr⟩
  · exact ⟨[tokOf Tag.KW_PRINT], _, rfl, ⟨_, rfl, rfl⟩, [tokOf Tag.TK_ASTERISK], _, rfl, .inr (.inl ⟨_, rfl, rfl⟩), [tokOf Tag.TK_COMMA], [], rfl,
      ⟨_, rfl, rfl⟩, rfl⟩
  · intro w hw
    rw [List.mem_singleton.mp hw]
    exact group_expr hgr
  · intro w hw
    rw [List.mem_singleton.mp hw]
    exact noDo_group hgr

/-- `read(5, *)`, for which C81 finds undefined behaviour. -/
example : DispatchReturns noExts Tag.SG_READ_STMT
    (lineOf [Tag.KW_READ, Tag.TK_PARENL, Tag.SG_INT_LITERAL_CONSTANT, Tag.TK_COMMA, Tag.TK_ASTERISK, Tag.TK_PARENR]) (.error .ub) := by
  have hin : WellNested [Tag.SG_INT_LITERAL_CONSTANT, Tag.TK_COMMA, Tag.TK_ASTERISK] :=
    .plain (plainOf (by decide)) <| .plain (plainOf (by decide)) <| .plain (plainOf (by decide)) .nil
  refine C81_violation_read_nothing noExts goodExts_none forward_none _ ?_ (noImages_of (by decide +kernel)) ?_
  · exact wholeStmt_of (goodTags_of (by decide +kernel)) (.plain (plainOf (by decide)) <| .paren (b := []) hin .nil)
  · exact ⟨[tokOf Tag.KW_READ], _, rfl, ⟨_, rfl, rfl⟩, _, [], by rw [List.append_nil], ⟨_, hin, rfl⟩, rfl⟩

/-- `read *, (a)`, likewise. -/
example : DispatchReturns noExts Tag.SG_READ_STMT
    (lineOf [Tag.KW_READ, Tag.TK_ASTERISK, Tag.TK_COMMA, Tag.TK_PARENL, Tag.TK_NAME, Tag.TK_PARENR]) (.error .ub) := by
  have hin : WellNested [Tag.TK_NAME] := .plain (plainOf (by decide)) .nil
  refine C81_violation_read_loop noExts goodExts_none forward_none _ ?_ (noImages_of (by decide +kernel))
    [tokOf Tag.KW_READ, tokOf Tag.TK_ASTERISK, tokOf Tag.TK_COMMA] [tokOf Tag.TK_PARENL, tokOf Tag.TK_NAME, tokOf Tag.TK_PARENR] rfl ?_ ⟨_, hin, rfl⟩
  · exact wholeStmt_of (goodTags_of (by decide +kernel))
      (.plain (plainOf (by decide)) <| .plain (plainOf (by decide)) <| .plain (plainOf (by decide)) <| .paren (b := []) hin .nil)
  · exact .inr ⟨tokOf Tag.KW_READ, [tokOf Tag.TK_ASTERISK], tokOf Tag.TK_COMMA, rfl, rfl, rfl, .inr (.inl ⟨_, rfl, rfl⟩), by decide⟩

end SP
end FLPR
