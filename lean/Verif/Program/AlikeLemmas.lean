import Verif.StmtParser.AlikeLemmas
import Verif.Program.AlikeSpec
/-!
# Program parsers do not tell equivalent statements apart: lemmas
-/

namespace FLPR

/-! ### Numbers do not depend on case -/

theorem lowChar_id {c : Char} (h : ¬ ('A' ≤ c ∧ c ≤ 'Z')) : lowChar c = c := by
  unfold lowChar
  rw [if_neg h]

theorem lowChar_upper {c : Char} (h : 'A' ≤ c ∧ c ≤ 'Z') : 97 ≤ (lowChar c).toNat ∧ (lowChar c).toNat ≤ 122 ∧ 65 ≤ c.toNat ∧ c.toNat ≤ 90 := by
  have h1 : 65 ≤ c.toNat := h.1
  have h2 : c.toNat ≤ 90 := h.2
  unfold lowChar
  rw [if_pos h]
  have : (Char.ofNat (c.toNat + 32)).toNat = c.toNat + 32 := by
    have hv : (c.toNat + 32).isValidChar := .inl (by omega)
    unfold Char.ofNat
    rw [dif_pos hv]
    rfl
  rw [this]
  omega

/-- A character below `A` is nothing but itself. -/
theorem lowChar_small {c d : Char} (hd : d.toNat < 65) : lowChar c = d ↔ c = d := by
  by_cases h : 'A' ≤ c ∧ c ≤ 'Z'
  · have := lowChar_upper h
    constructor
    · intro e; rw [e] at this; omega
    · intro e; rw [e] at this; omega
  · rw [lowChar_id h]

theorem isSpace_low (c : Char) : isSpace (lowChar c) = isSpace c := by
  by_cases h : 'A' ≤ c ∧ c ≤ 'Z'
  · have := lowChar_upper h
    have no : ∀ d : Char, 65 ≤ d.toNat → isSpace d = false := by
      intro d hd
      unfold isSpace
      have ne : ∀ x : Char, x.toNat < 65 → (d == x) = false := by
        intro x hx
        rw [beq_eq_false_iff_ne]
        intro e
        rw [e] at hd
        omega
      rw [ne _ (by decide), ne _ (by decide), ne _ (by decide), ne _ (by decide), ne _ (by decide), ne _ (by decide)]
      rfl
    rw [no _ (by omega), no _ (by omega)]
  · rw [lowChar_id h]

theorem isDigit_low (c : Char) : isDigit (lowChar c) = isDigit c := by
  by_cases h : 'A' ≤ c ∧ c ≤ 'Z'
  · have := lowChar_upper h
    have no : ∀ d : Char, 65 ≤ d.toNat → isDigit d = false := by
      intro d hd
      unfold isDigit
      rw [Bool.and_eq_false_iff]
      right
      rw [decide_eq_false_iff_not]
      intro e
      have : d.toNat ≤ 57 := e
      omega
    rw [no _ (by omega), no _ (by omega)]
  · rw [lowChar_id h]

theorem digit_low {c : Char} (h : isDigit c = true) : lowChar c = c := by
  refine lowChar_id (fun hc => ?_)
  unfold isDigit at h
  simp only [Bool.and_eq_true, decide_eq_true_eq] at h
  have h1 : c.toNat ≤ 57 := h.2
  have h2 : 65 ≤ c.toNat := hc.1
  omega

theorem map_takeDigits : ∀ (s : Str), (s.map lowChar).takeWhile isDigit = s.takeWhile isDigit
  | [] => rfl
  | c :: s => by
    rw [List.map_cons, List.takeWhile_cons, List.takeWhile_cons, isDigit_low, map_takeDigits s]
    split
    · rename_i h; rw [digit_low h]
    · rfl

theorem map_dropSpace : ∀ (s : Str), (s.map lowChar).dropWhile isSpace = (s.dropWhile isSpace).map lowChar
  | [] => rfl
  | c :: s => by
    rw [List.map_cons, List.dropWhile_cons, List.dropWhile_cons, isSpace_low, map_dropSpace s]
    split <;> rfl

theorem head_low {s : Str} {d : Char} (hd : d.toNat < 65) : (s.map lowChar).head? = some d ↔ s.head? = some d := by
  cases s with
  | nil => simp
  | cons c s => simp [lowChar_small hd]

theorem stoi_low (s : Str) : stoi (s.map lowChar) = stoi s := by
  unfold stoi
  dsimp only
  rw [map_dropSpace]
  generalize s.dropWhile isSpace = t
  have hm : ((t.map lowChar).head? = some '-') ↔ (t.head? = some '-') := head_low (by decide)
  have hp : ((t.map lowChar).head? = some '+') ↔ (t.head? = some '+') := head_low (by decide)
  have hb : ((t.map lowChar).head? == some '-') = (t.head? == some '-') := by
    rw [Bool.eq_iff_iff, beq_iff_eq, beq_iff_eq, hm]
  have ht : (if (t.map lowChar).head? = some '-' ∨ (t.map lowChar).head? = some '+' then (t.map lowChar).tail else t.map lowChar) =
      (if t.head? = some '-' ∨ t.head? = some '+' then t.tail else t).map lowChar := by
    by_cases h : t.head? = some '-' ∨ t.head? = some '+'
    · rw [if_pos h, if_pos (by rw [hm, hp]; exact h), List.map_tail]
    · rw [if_neg h, if_neg (by rw [hm, hp]; exact h)]
  rw [hb, ht, map_takeDigits]

namespace PP
open Spec
open SP (R SNode Rng Strm PRes PFail up)

theorem EquivStmt.refl_sentry : EquivStmt sentry sentry := ⟨rfl, .nil, rfl, rfl, rfl⟩

theorem eqv_hi {s s' : PState} (h : EquivState s s') : s'.hi = s.hi := by rw [h.rest]
theorem eqv_pos {s s' : PState} (h : EquivState s s') : s'.pos = s.pos := by rw [h.rest]
theorem eqv_stack {s s' : PState} (h : EquivState s s') : s'.stack = s.stack := by rw [h.rest]
theorem eqv_good {s s' : PState} (h : EquivState s s') : s'.good = s.good := by unfold PState.good; rw [eqv_hi h, eqv_pos h]

theorem cur_eqv {s s' : PState} (h : EquivState s s') : BothWays EquivStmt s.cur s'.cur := by
  unfold PState.cur
  rw [eqv_pos h, ← h.stmts.length_eq]
  have hs := h.stmts
  generalize s.stmts = a at hs
  generalize s'.stmts = b at hs
  generalize hp : s.pos = p
  clear hp
  have : (a[p]? = none ∧ b[p]? = none) ∨ ∃ x y, a[p]? = some x ∧ b[p]? = some y ∧ EquivStmt x y := by
    clear h
    induction hs generalizing p with
    | nil => left; simp
    | cons hx _ ih =>
      cases p with
      | zero => right; exact ⟨_, _, rfl, rfl, hx⟩
      | succ p => simpa using ih p
  rcases this with ⟨h1, h2⟩ | ⟨x, y, h1, h2, h3⟩
  · rw [h1, h2]
    exact SP.BW.ite (fun _ => SP.BW.ok EquivStmt.refl_sentry) (fun _ => SP.BW.err _)
  · rw [h1, h2]
    exact SP.BW.ok h3

theorem advance_eqv {s s' : PState} (h : EquivState s s') : EquivState s.advance s'.advance := by
  unfold PState.advance
  rw [eqv_pos h, eqv_hi h]
  split
  · exact h
  · refine ⟨h.stmts, ?_⟩
    rw [h.rest]

theorem attach_eqv {s s' : PState} (h : EquivState s s') (t : SNode) : EquivState (s.attach t) (s'.attach t) :=
  ⟨h.stmts, by unfold PState.attach; rw [h.rest]⟩

theorem giveUp_eqv {s s' : PState} (h : EquivState s s') : EquivState s.giveUp s'.giveUp :=
  ⟨h.stmts, by unfold PState.giveUp; rw [h.rest]⟩

theorem stack_eqv {s s' : PState} (h : EquivState s s') (k : LabelStack) : EquivState { s with stack := k } { s' with stack := k } :=
  ⟨h.stmts, by rw [h.rest]⟩

theorem complain_eqv {s s' : PState} (h : EquivState s s') : BothWays EquivState s.complain s'.complain := by
  unfold PState.complain
  exact SP.BW.bind (cur_eqv h) (fun _ _ _ => SP.BW.ok ⟨h.stmts, by rw [h.rest]⟩)

theorem noMatch_eqv {s s' : PState} (h : EquivState s s') : SameResult (noMatch s) (noMatch s') := ⟨rfl, rfl, h⟩

/-- The statement parsers do not tell equivalent streams apart. -/
def SLevel (sp : StmtP) : Prop := ∀ r s s', EquivStrm s s' → BothWays SameFind (sp r s) (sp r s')

/-- The inner parsers do not tell equivalent states apart. -/
def PLevel (f : T → PState → PRes POut) : Prop := ∀ p s s', EquivState s s' → BothWays SameResult (f p s) (f p s')

/-- Equal first components, states in the relation. -/
structure PairSame {α : Type} (a b : α × PState) : Prop where
  fst : b.1 = a.1
  snd : EquivState a.2 b.2

section
variable {sp : StmtP} (S : SLevel sp) {f : T → PState → PRes POut} (H : PLevel f)

include S in
theorem runStmt_eqv (r : R) {s s' : PState} (h : EquivState s s') : BothWays SameResult (runStmt sp r s) (runStmt sp r s') := by
  unfold runStmt
  refine SP.BW.bind (SP.BW.up (cur_eqv h)) (fun a b hab => ?_)
  refine SP.BW.bind (S r _ _ hab.strm) (fun o o' ho => ?_)
  rw [ho.1]
  cases o.1 with
  | none => exact SP.BW.ok (noMatch_eqv h)
  | some t => exact SP.BW.ok ⟨by rw [eqv_pos h], rfl, advance_eqv (attach_eqv h t)⟩

include H in
theorem altsLoop_eqv : ∀ ps {s s' : PState}, EquivState s s' → BothWays SameResult (altsLoop f ps s) (altsLoop f ps s')
  | [], _, _, h => SP.BW.ok (noMatch_eqv h)
  | p :: ps, s, s', h => by
    unfold altsLoop
    refine SP.BW.bind (H p s s' h) (fun o o' ho => ?_)
    rw [ho.ok]
    exact SP.BW.ite (fun _ => SP.BW.ok ho) (fun _ => altsLoop_eqv ps ho.state)

/-- What sequences are collected as. -/
structure SeqSame (a b : PNode × Bool × PState) : Prop where
  node : b.1 = a.1
  ok : b.2.1 = a.2.1
  state : EquivState a.2.2 b.2.2

include H in
theorem seqLoop_eqv : ∀ ps {s s' : PState}, EquivState s s' → ∀ acc, BothWays SeqSame (seqLoop f ps s acc) (seqLoop f ps s' acc)
  | [], _, _, h, _ => SP.BW.ok ⟨rfl, rfl, h⟩
  | p :: ps, s, s', h, acc => by
    unfold seqLoop
    refine SP.BW.bind (H p s s' h) (fun o o' ho => ?_)
    rw [ho.ok, ho.tree]
    exact SP.BW.ite (fun _ => seqLoop_eqv ps ho.state _) (fun _ => SP.BW.ok ⟨rfl, rfl, ho.state⟩)

include H in
theorem starLoop_eqv (p : T) : ∀ n {s s' : PState}, EquivState s s' → ∀ acc, BothWays PairSame (starLoop f p n s acc) (starLoop f p n s' acc)
  | 0, _, _, _, _ => SP.BW.err _
  | n + 1, s, s', h, acc => by
    unfold starLoop
    rw [eqv_good h]
    refine SP.BW.ite (fun _ => ?_) (fun _ => SP.BW.ok ⟨rfl, h⟩)
    refine SP.BW.bind (H p s s' h) (fun o o' ho => ?_)
    rw [ho.ok, ho.tree]
    exact SP.BW.ite (fun _ => starLoop_eqv p n ho.state _) (fun _ => SP.BW.ok ⟨rfl, ho.state⟩)

include H in
theorem blockLoop_eqv : ∀ n {s s' : PState}, EquivState s s' → ∀ acc, BothWays PairSame (blockLoop f n s acc) (blockLoop f n s' acc)
  | 0, _, _, _, _ => SP.BW.err _
  | n + 1, s, s', h, acc => by
    unfold blockLoop
    refine SP.BW.bind (H _ s s' h) (fun o o' ho => ?_)
    rw [ho.tree]
    cases o.tree with
    | some t => exact blockLoop_eqv n ho.state _
    | none => exact SP.BW.ok ⟨rfl, ho.state⟩

theorem labelValue_eqv {l l' : List Tok} (h : List.Forall₂ EquivTok l l') (n : SNode) : labelValue l' n = labelValue l n := by
  unfold labelValue
  split
  · rfl
  · cases n.range with
    | none => rfl
    | some q =>
      obtain ⟨b, e⟩ := q
      dsimp only
      split
      · have hd := SP.derefTok_eqv h b
        cases h1 : SP.derefTok l b <;> cases h2 : SP.derefTok l' b <;> rw [h1, h2] at hd
        · have : _ = _ := hd
          rw [this]
        · exact hd.elim
        · exact hd.elim
        · have : EquivTok _ _ := hd
          simp only [Res.ok_bind]
          rw [← stoi_low, this.text, stoi_low]
      · rfl

theorem getLabel_eqv {l l' : List Tok} (h : List.Forall₂ EquivTok l l') (t : SNode) : getLabelDoLabel l' t = getLabelDoLabel l t := by
  unfold getLabelDoLabel labelFrom
  simp only [labelValue_eqv h]

/-- The ways a do ends. -/
structure EndSame (a b : DoEnd) : Prop where
  cons : b.cons = a.cons
  pg : b.pg = a.pg
  sg : b.sg = a.sg
  s : EquivState a.s b.s

/-- The result of looking for the end of a do. -/
structure EndsSame (a b : Option DoEnd × PState) : Prop where
  fst : (a.1 = none ∧ b.1 = none) ∨ ∃ x y, a.1 = some x ∧ b.1 = some y ∧ EndSame x y
  snd : EquivState a.2 b.2

include S in
theorem endPlain_eqv {st st' : LStmt} (hst : EquivStmt st st') {s s' : PState} (h : EquivState s s') :
    BothWays EndsSame (endPlain sp st s) (endPlain sp st' s') := by
  unfold endPlain
  refine SP.BW.bind (S _ _ _ hst.strm) (fun o o' ho => ?_)
  rw [ho.1]
  cases o.1 with
  | none => exact SP.BW.ok ⟨.inl ⟨rfl, rfl⟩, h⟩
  | some e => exact SP.BW.ok ⟨.inr ⟨_, _, rfl, rfl, rfl, rfl, rfl, advance_eqv (attach_eqv h e)⟩, h⟩

include S in
theorem endShared_eqv (lv : Int) {st st' : LStmt} (hst : EquivStmt st st') {s s' : PState} (h : EquivState s s') :
    BothWays EndsSame (endShared sp lv st s) (endShared sp lv st' s') := by
  unfold endShared
  refine SP.BW.bind (S _ _ _ hst.strm) (fun o o' ho => ?_)
  rw [ho.1]
  cases o.1 with
  | none => exact SP.BW.ok ⟨.inl ⟨rfl, rfl⟩, h⟩
  | some e =>
    dsimp only
    have h1 : EquivState (if lv = 1 then (s.attach e).advance else s) (if lv = 1 then (s'.attach e).advance else s') := by
      split
      · exact advance_eqv (attach_eqv h e)
      · exact h
    rw [eqv_stack h1]
    refine SP.BW.bind (SP.BW.same _) (fun k k' hk => ?_)
    subst hk
    exact SP.BW.ok ⟨.inr ⟨_, _, rfl, rfl, rfl, rfl, rfl, stack_eqv h1 k⟩, h⟩

include S in
theorem endSingle_eqv {st st' : LStmt} (hst : EquivStmt st st') {s s' : PState} (h : EquivState s s') :
    BothWays EndsSame (endSingle sp st s) (endSingle sp st' s') := by
  unfold endSingle
  refine SP.BW.bind (S _ _ _ hst.strm) (fun o o' ho => ?_)
  rw [ho.1]
  cases o.1 with
  | some e =>
    dsimp only
    have h1 := advance_eqv (attach_eqv h e)
    rw [eqv_stack h1]
    refine SP.BW.bind (SP.BW.same _) (fun k k' hk => ?_)
    subst hk
    exact SP.BW.ok ⟨.inr ⟨_, _, rfl, rfl, rfl, rfl, rfl, stack_eqv h1 k⟩, h⟩
  | none =>
    dsimp only
    refine SP.BW.bind (S _ _ _ ho.2) (fun o2 o2' ho2 => ?_)
    rw [ho2.1]
    cases o2.1 with
    | none => exact SP.BW.ok ⟨.inl ⟨rfl, rfl⟩, h⟩
    | some e =>
      dsimp only
      have h1 := advance_eqv (attach_eqv h e)
      rw [eqv_stack h1]
      refine SP.BW.bind (SP.BW.same _) (fun k k' hk => ?_)
      subst hk
      exact SP.BW.ok ⟨.inr ⟨_, _, rfl, rfl, rfl, rfl, rfl, stack_eqv h1 k⟩, h⟩

include S in
theorem doEnd_eqv {s s' : PState} (h : EquivState s s') : BothWays EndsSame (doEnd sp s) (doEnd sp s') := by
  unfold doEnd
  refine SP.BW.bind (SP.BW.up (cur_eqv h)) (fun a b hab => ?_)
  rw [hab.label, eqv_stack h]
  refine SP.BW.ite (fun _ => endPlain_eqv S hab h) (fun _ => ?_)
  refine SP.BW.bind (SP.BW.same _) (fun k k' hk => ?_)
  subst hk
  exact SP.BW.ite (fun _ => SP.BW.err _) (fun _ => SP.BW.ite (fun _ => endShared_eqv S _ hab (stack_eqv h _))
    (fun _ => endSingle_eqv S hab (stack_eqv h _)))

theorem doTree_eqv (tag : Int) (i : Nat) (n : PNode) (j : Nat) {e e' : DoEnd} (h : EndSame e e') : doTree tag i n j e' = doTree tag i n j e := by
  unfold doTree
  rw [h.cons, h.pg, h.sg]

include S H in
theorem runDo_eqv (k : Nat) {s s' : PState} (h : EquivState s s') : BothWays SameResult (runDo sp f k s) (runDo sp f k s') := by
  unfold runDo
  refine SP.BW.bind (SP.BW.up (cur_eqv h)) (fun a b hab => ?_)
  refine SP.BW.bind (S _ _ _ hab.strm) (fun o o' ho => ?_)
  rw [ho.1]
  cases o.1 with
  | none => exact SP.BW.ok (noMatch_eqv h)
  | some t =>
    dsimp only
    rw [getLabel_eqv hab.strm.all]
    refine SP.BW.bind (SP.BW.same _) (fun lb lb' hl => ?_)
    subst hl
    have h1 : EquivState (if lb > 0 then { s with stack := s.stack.push lb } else s) (if lb > 0 then { s' with stack := s'.stack.push lb } else s') := by
      rw [eqv_stack h]
      split
      · exact stack_eqv h _
      · exact h
    refine SP.BW.bind (blockLoop_eqv H k (advance_eqv (attach_eqv h1 t)) _) (fun r r' hr => ?_)
    refine SP.BW.bind (doEnd_eqv S hr.snd) (fun e e' he => ?_)
    rcases he.fst with ⟨e1, e2⟩ | ⟨x, y, e1, e2, hxy⟩
    · rw [e1, e2]
      exact SP.BW.ok (noMatch_eqv (giveUp_eqv he.snd))
    · rw [e1, e2]
      dsimp only
      rw [doTree_eqv _ _ _ _ hxy, hr.fst, eqv_pos h, eqv_pos hr.snd]
      refine SP.BW.bind (SP.BW.same _) (fun n n' hn => ?_)
      subst hn
      exact SP.BW.ok ⟨rfl, rfl, hxy.s⟩

include S H in
theorem runBody_eqv (k : Nat) (b : PBody) {s s' : PState} (h : EquivState s s') :
    BothWays SameResult (runBody sp f k b s) (runBody sp f k b s') := by
  cases b with
  | comb p => exact H p s s' h
  | exec p =>
    unfold runBody
    refine SP.BW.bind (SP.BW.up (cur_eqv h)) (fun a b hab => ?_)
    rw [hab.label, eqv_stack h]
    exact SP.BW.ite (fun _ => SP.BW.ok (noMatch_eqv h)) (fun _ => H p s s' h)
  | legacyDo => exact runDo_eqv S H k h

include S H in
theorem step_eqv (g : PR → PBody) (k : Nat) (p : T) {s s' : PState} (h : EquivState s s') :
    BothWays SameResult (step sp g f k p s) (step sp g f k p s') := by
  have cov : ∀ (n : PNode) (b : Bool) {u u' : PState}, EquivState u u' →
      BothWays SameResult (do let m ← up (coverBranches n); .ok ⟨some m, b, u⟩ : PRes POut) (do let m ← up (coverBranches n); .ok ⟨some m, b, u'⟩) := by
    intro n b u u' hu
    refine SP.BW.bind (SP.BW.same _) (fun m m' hm => ?_)
    subst hm
    exact SP.BW.ok ⟨rfl, rfl, hu⟩
  have giv : ∀ {u u' : PState}, EquivState u u' → BothWays SameResult (do let v ← up u.complain; .ok (noMatch v.giveUp) : PRes POut)
      (do let v ← up u'.complain; .ok (noMatch v.giveUp)) := by
    intro u u' hu
    exact SP.BW.bind (SP.BW.up (complain_eqv hu)) (fun a b hab => SP.BW.ok (noMatch_eqv (giveUp_eqv hab)))
  cases p with
  | alts tag ps =>
    refine SP.BW.bind (altsLoop_eqv H ps h) (fun o o' ho => ?_)
    rw [ho.ok, ho.tree]
    refine SP.BW.ite (fun _ => ?_) (fun _ => SP.BW.ok (noMatch_eqv ho.state))
    cases o.tree with
    | none => exact SP.BW.err _
    | some t => exact cov _ _ ho.state
  | endStream =>
    unfold step
    rw [eqv_good h]
    refine SP.BW.ite (fun _ => ?_) (fun _ => SP.BW.ok ⟨rfl, rfl, h⟩)
    exact SP.BW.bind (SP.BW.up (complain_eqv h)) (fun a b hab => SP.BW.ok (noMatch_eqv hab))
  | opt p =>
    refine SP.BW.bind (H p s s' h) (fun o o' ho => ?_)
    rw [ho.tree]
    cases o.tree with
    | none => exact SP.BW.ok ⟨rfl, rfl, ho.state⟩
    | some t => exact cov _ _ ho.state
  | optSeq tag ps =>
    refine SP.BW.bind (seqLoop_eqv H ps h _) (fun o o' ho => ?_)
    rw [ho.node]
    exact cov _ _ ho.state
  | plus tag p =>
    unfold step
    rw [eqv_good h]
    refine SP.BW.ite (fun _ => ?_) (fun _ => SP.BW.ok (noMatch_eqv h))
    refine SP.BW.bind (H p s s' h) (fun o o' ho => ?_)
    rw [ho.ok, ho.tree]
    refine SP.BW.ite (fun _ => ?_) (fun _ => SP.BW.ok (noMatch_eqv ho.state))
    refine SP.BW.bind (starLoop_eqv H p k ho.state _) (fun r r' hr => ?_)
    rw [hr.fst]
    exact cov _ _ hr.snd
  | seq tag ps =>
    refine SP.BW.bind (seqLoop_eqv H ps h _) (fun o o' ho => ?_)
    rw [ho.node, ho.ok]
    exact SP.BW.ite (fun _ => cov _ _ ho.state) (fun _ => giv ho.state)
  | seqIf tag p ps =>
    refine SP.BW.bind (H p s s' h) (fun o o' ho => ?_)
    rw [ho.ok, ho.tree]
    refine SP.BW.ite (fun _ => ?_) (fun _ => SP.BW.ok (noMatch_eqv ho.state))
    refine SP.BW.bind (seqLoop_eqv H ps ho.state _) (fun r r' hr => ?_)
    rw [hr.node, hr.ok]
    exact SP.BW.ite (fun _ => cov _ _ hr.state) (fun _ => giv hr.state)
  | star p =>
    refine SP.BW.bind (starLoop_eqv H p k h _) (fun r r' hr => ?_)
    rw [hr.fst]
    exact cov _ _ hr.snd
  | stmt r => exact runStmt_eqv S r h
  | tagIf tag p =>
    refine SP.BW.bind (H p s s' h) (fun o o' ho => ?_)
    rw [ho.tree, ho.ok]
    cases ht : o.tree with
    | none => exact SP.BW.ok ⟨by rw [ho.tree], ho.ok, ho.state⟩
    | some t => exact cov _ _ ho.state
  | rule r => exact runBody_eqv S H k (g r) h

end

theorem eval_eqv {sp : StmtP} (S : SLevel sp) (g : PR → PBody) : ∀ n, PLevel (eval sp g n)
  | 0, _, _, _, _ => SP.BW.err _
  | n + 1, p, _, _, h => step_eqv S (eval_eqv S g n) g n p h

theorem run_eqv {x : SP.Exts} (hx : Indifferent x) (n : Nat) (r : PR) {s s' : PState} (h : EquivState s s') :
    BothWays SameResult (run x n r s) (run x n r s') :=
  eval_eqv (fun r _ _ hs => SP.evalRule_eqv _ hx n r hs) PR.body n (.rule r) s s' h

end PP
end FLPR
