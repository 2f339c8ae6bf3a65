import Verif.Program.Safe
/-!
# The program level parsers add no undefined behaviour to that of the statement parsers
-/

namespace FLPR
namespace Spec
open PP
open SP (R SNode Strm)

/-- On this statement the statement parsers do nothing undefined, and the label of a label-do-stmt can
be read. -/
structure Behaves (sp : StmtP) (st : LStmt) : Prop where
  parse : ∀ r, sp r st.strm ≠ .error (.fail .ub)
  label : ∀ t q, sp .do_stmt st.strm = .ok (some t, q) → getLabelDoLabel st.strm.all t ≠ .error .ub

end Spec

namespace PP
open Spec
open SP (R SNode Rng Strm PRes PFail up up_ok)

/-- Anything but undefined behaviour. -/
abbrev Ok {α : Type} (w : PRes α) : Prop := w ≠ .error (.fail .ub)
abbrev OkR {α : Type} (w : Res α) : Prop := w ≠ .error .ub

theorem ok_ok {α : Type} (a : α) : Ok (.ok a : PRes α) := by intro h; cases h
theorem okR_ok {α : Type} (a : α) : OkR (.ok a : Res α) := by intro h; cases h
theorem ok_fuel {α : Type} : Ok (.error .fuel : PRes α) := by intro h; cases h
theorem ok_assert {α : Type} : Ok (.error (.fail .assertion) : PRes α) := by intro h; cases h
theorem okR_assert {α : Type} : OkR (.error .assertion : Res α) := by intro h; cases h
theorem okR_exc {α : Type} : OkR (.error .exc : Res α) := by intro h; cases h

theorem ok_up {α : Type} {w : Res α} (h : OkR w) : Ok (up w) := by
  intro e
  cases w with
  | ok a => cases e
  | error f => simp only [up] at e; injection e with e; injection e with e; subst e; exact h rfl

theorem ok_bind {α β : Type} {w : PRes α} {f : α → PRes β} (h1 : Ok w) (h2 : ∀ a, w = .ok a → Ok (f a)) :
    Ok (w >>= f) := by
  cases w with
  | ok a => exact h2 a rfl
  | error e => intro h; exact h1 (by cases h; rfl)

theorem okR_bind {α β : Type} {w : Res α} {f : α → Res β} (h1 : OkR w) (h2 : ∀ a, w = .ok a → OkR (f a)) :
    OkR (w >>= f) := by
  cases w with
  | ok a => exact h2 a rfl
  | error e => intro h; exact h1 (by cases h; rfl)

theorem pushBack_def (r a : Rng) : OkR (r.pushBack a) := by
  unfold SP.Rng.pushBack
  cases a with
  | none => exact okR_ok _
  | some a =>
    simp only
    split
    · exact okR_ok _
    · cases r with
      | none => exact okR_ok _
      | some r =>
        simp only
        split
        · exact okR_ok _
        · split
          · split
            · exact okR_ok _
            · exact okR_assert
          · exact okR_ok _

theorem pushAll_def : ∀ (ks : List PNode) r, OkR (pushAll r ks)
  | [], r => okR_ok _
  | k :: ks, r => by
    rw [pushAll]
    exact okR_bind (pushBack_def _ _) (fun a _ => pushAll_def ks a)

theorem cover_def (n : PNode) : OkR (coverBranches n) := by
  cases n with
  | node t r i ks =>
    cases i with
    | some i => exact okR_ok _
    | none =>
      rw [coverBranches]
      exact okR_bind (pushAll_def _ _) (fun _ _ => okR_ok _)

theorem cur_def {s : PState} (hf : Full s) : OkR s.cur := by
  unfold PState.cur
  cases h : s.stmts[s.pos]? with
  | some st => exact okR_ok _
  | none =>
    simp only
    have h1 := List.getElem?_eq_none_iff.mp h
    have h2 := hf.1
    have h3 := hf.2
    rw [if_pos (by omega)]
    exact okR_ok _

theorem cur_mem {s : PState} {st : LStmt} (h : s.cur = .ok st) : st ∈ sentry :: s.stmts := by
  unfold PState.cur at h
  cases hq : s.stmts[s.pos]? with
  | some w => rw [hq] at h; injection h with h; subst h; exact List.mem_cons_of_mem _ (List.mem_of_getElem? hq)
  | none =>
    rw [hq] at h
    simp only at h
    split at h
    · injection h with h; subst h; simp
    · cases h

theorem complain_def {s : PState} (hf : Full s) : OkR s.complain := by
  unfold PState.complain
  exact okR_bind (cur_def hf) (fun _ _ => okR_ok _)

theorem setLevels_ne {n : Nat} {s : LabelStack} (h : s ≠ []) : LabelStack.setLevels n s ≠ [] := by
  cases n with
  | zero => simpa [LabelStack.setLevels] using h
  | succ n =>
    cases s with
    | nil => exact absurd rfl h
    | cons r s => simp [LabelStack.setLevels]

theorem level_def (k : LabelStack) (l : Int) : OkR (k.level l) := by
  unfold LabelStack.level
  cases k with
  | nil => exact okR_ok _
  | cons r t =>
    simp only
    split
    · exact okR_ok _
    · split
      · split
        · split
          · next h =>
            split at h
            · cases h
            · exact absurd h (setLevels_ne (by simp))
          · exact okR_ok _
        · exact okR_assert
      · exact okR_ok _

theorem level_ne {k k' : LabelStack} {l v : Int} (h : k.level l = .ok (v, k')) (hv : ¬ v ≤ -1) : k' ≠ [] := by
  unfold LabelStack.level at h
  cases k with
  | nil => simp only at h; injection h with h; injection h with h1 h2; omega
  | cons r t =>
    simp only at h
    by_cases h1 : r.label ≠ l
    · rw [if_pos h1] at h; injection h with h; injection h with h1 h2; omega
    · rw [if_neg h1] at h
      by_cases h2 : r.level = -1
      · rw [if_pos h2] at h
        split at h
        · split at h
          · cases h
          · next hs => injection h with h; injection h with _ h; subst h; intro e; rw [e] at hs; cases hs
        · cases h
      · rw [if_neg h2] at h; injection h with h; injection h with _ h; subst h; simp

theorem pop_def {k : LabelStack} (h : k ≠ []) : OkR k.pop := by
  cases k with
  | nil => exact absurd rfl h
  | cons r t => exact okR_ok _

section
variable {f : T → PState → PRes POut} {k : R → Bool} {c : PR → Bool} {sp : StmtP} {g : PR → PBody}

/-- What is known of the inner parsers. -/
structure Defd (k : R → Bool) (c : PR → Bool) (sp : StmtP) (f : T → PState → PRes POut) : Prop where
  takes : Takes k c f
  ok : ∀ p s, Full s → (∀ st ∈ sentry :: s.stmts, Behaves sp st) → Ok (f p s)

theorem PAdv.behaves {s s' : PState} (h : PAdv s s') (hb : ∀ st ∈ sentry :: s.stmts, Behaves sp st) :
    ∀ st ∈ sentry :: s'.stmts, Behaves sp st := by rw [h.stmts]; exact hb

theorem alts_def (H : Defd k c sp f) : ∀ ps s, Full s → (∀ st ∈ sentry :: s.stmts, Behaves sp st) → Ok (altsLoop f ps s)
  | [], s, _, _ => ok_ok _
  | p :: ps, s, hf, hb => by
    rw [altsLoop]
    refine ok_bind (H.ok p s hf hb) (fun o ho => ?_)
    have ha := H.takes.adv _ _ _ ho
    split
    · exact ok_ok _
    · exact alts_def H ps _ (ha.full hf) (ha.behaves hb)

theorem seq_def (H : Defd k c sp f) : ∀ ps s acc, Full s → (∀ st ∈ sentry :: s.stmts, Behaves sp st) →
    Ok (seqLoop f ps s acc)
  | [], s, acc, _, _ => ok_ok _
  | p :: ps, s, acc, hf, hb => by
    rw [seqLoop]
    refine ok_bind (H.ok p s hf hb) (fun o ho => ?_)
    have ha := H.takes.adv _ _ _ ho
    split
    · exact seq_def H ps _ _ (ha.full hf) (ha.behaves hb)
    · exact ok_ok _

theorem star_def (H : Defd k c sp f) (p : T) : ∀ n s acc, Full s → (∀ st ∈ sentry :: s.stmts, Behaves sp st) →
    Ok (starLoop f p n s acc)
  | 0, s, acc, _, _ => ok_fuel
  | n + 1, s, acc, hf, hb => by
    rw [starLoop]
    split
    · refine ok_bind (H.ok p s hf hb) (fun o ho => ?_)
      have ha := H.takes.adv _ _ _ ho
      split
      · exact star_def H p n _ _ (ha.full hf) (ha.behaves hb)
      · exact ok_ok _
    · exact ok_ok _

theorem block_def (H : Defd k c sp f) : ∀ n s acc, Full s → (∀ st ∈ sentry :: s.stmts, Behaves sp st) →
    Ok (blockLoop f n s acc)
  | 0, s, acc, _, _ => ok_fuel
  | n + 1, s, acc, hf, hb => by
    rw [blockLoop]
    refine ok_bind (H.ok _ s hf hb) (fun o ho => ?_)
    have ha := H.takes.adv _ _ _ ho
    cases o.tree with
    | some t => exact block_def H n _ _ (ha.full hf) (ha.behaves hb)
    | none => exact ok_ok _

theorem stmt_def {r : R} {s : PState} (hf : Full s) (hb : ∀ st ∈ sentry :: s.stmts, Behaves sp st) : Ok (runStmt sp r s) := by
  rw [runStmt]
  refine ok_bind (ok_up (cur_def hf)) (fun st hst => ?_)
  refine ok_bind ((hb st (cur_mem (up_ok hst))).parse r) (fun o _ => ?_)
  cases o.1 <;> exact ok_ok _

theorem doEnd_def (hre : RestoresEndDo sp) {s : PState} (hf : Full s) (hb : ∀ st ∈ sentry :: s.stmts, Behaves sp st) :
    Ok (doEnd sp s) := by
  unfold doEnd
  refine ok_bind (ok_up (cur_def hf)) (fun st hst => ?_)
  have hb := (hb st (cur_mem (up_ok hst))).parse
  split
  · unfold endPlain
    refine ok_bind (hb _) (fun o _ => ?_)
    cases o.1 <;> exact ok_ok _
  · refine ok_bind (ok_up (level_def _ _)) (fun lv hlv => ?_)
    obtain ⟨v, k'⟩ := lv
    have hlv := up_ok hlv
    by_cases hv : v ≤ -1
    · rw [if_pos hv]; exact ok_assert
    · rw [if_neg hv]
      have hne := level_ne hlv hv
      split
      · unfold endShared
        refine ok_bind (hb _) (fun o _ => ?_)
        cases o.1 with
        | none => exact ok_ok _
        | some t =>
          simp only
          refine ok_bind (ok_up (pop_def ?_)) (fun k _ => ok_ok _)
          split
          · rw [(advance_eq _).2.2.2.2.1]; exact hne
          · exact hne
      · unfold endSingle
        refine ok_bind (hb _) (fun o ho => ?_)
        obtain ⟨o1, o2⟩ := o
        cases o1 with
        | some t =>
          refine ok_bind (ok_up (pop_def ?_)) (fun k _ => ok_ok _)
          rw [(advance_eq _).2.2.2.2.1]; exact hne
        | none =>
          have := hre _ _ ho
          subst this
          refine ok_bind (hb _) (fun o _ => ?_)
          cases o.1 with
          | none => exact ok_ok _
          | some t =>
            refine ok_bind (ok_up (pop_def ?_)) (fun k _ => ok_ok _)
            rw [(advance_eq _).2.2.2.2.1]; exact hne

theorem doTree_def {a : Int} {i : Nat} {b : PNode} {j : Nat} {e : DoEnd} : OkR (doTree a i b j e) := by
  unfold doTree
  refine okR_bind (cover_def _) (fun _ _ => okR_bind (cover_def _) (fun _ _ => okR_bind (cover_def _) (fun _ _ => cover_def _)))

theorem do_def (H : Defd k c sp f) (hre : RestoresEndDo sp) {m : Nat} {s : PState} (hf : Full s)
    (hb : ∀ st ∈ sentry :: s.stmts, Behaves sp st) : Ok (runDo sp f m s) := by
  unfold runDo
  refine ok_bind (ok_up (cur_def hf)) (fun st hst => ?_)
  have hbs := hb st (cur_mem (up_ok hst))
  refine ok_bind (hbs.parse _) (fun o ho => ?_)
  obtain ⟨o1, o2⟩ := o
  cases o1 with
  | none => exact ok_ok _
  | some t =>
    refine ok_bind (ok_up (hbs.label _ _ ho)) (fun label hlabel => ?_)
    have h0 : PAdv s (if label > 0 then { s with stack := s.stack.push label } else s) := by
      by_cases hl : label > 0
      · rw [if_pos hl]; exact (PAdv.refl s).same rfl rfl rfl
      · rw [if_neg hl]; exact .refl s
    have h1 := h0.trans (PAdv.taken _ t)
    refine ok_bind (block_def H _ _ _ (h1.full hf) (h1.behaves hb)) (fun r hr => ?_)
    have h2 := h1.trans (block_takes H.takes _ _ _ _ hr)
    refine ok_bind (doEnd_def hre (h2.full hf) (h2.behaves hb)) (fun e he => ?_)
    cases e.1 with
    | none => exact ok_ok _
    | some w => exact ok_bind (ok_up doTree_def) (fun _ _ => ok_ok _)

theorem step_def (hg : ∀ r, c r = true → (g r).takes k c = true) (hsp : Starved k sp) (hre : RestoresEndDo sp)
    (H : Defd k c sp f) {m : Nat} : Defd k c sp (step sp g f m) := by
  refine ⟨⟨fun p s o h => (step_takes' hg hsp H.takes h).1,
    fun p s o h => (step_takes' hg hsp H.takes h).2.1, fun p s o h => (step_takes' hg hsp H.takes h).2.2⟩, ?_⟩
  intro p s hf hb
  cases p with
  | alts tag ps =>
    simp only [step]
    refine ok_bind (alts_def H ps s hf hb) (fun o _ => ?_)
    split
    · cases o.tree with
      | none => exact ok_assert
      | some t => exact ok_bind (ok_up (cover_def _)) (fun _ _ => ok_ok _)
    · exact ok_ok _
  | endStream =>
    simp only [step]
    split
    · exact ok_bind (ok_up (complain_def hf)) (fun _ _ => ok_ok _)
    · exact ok_ok _
  | opt p =>
    simp only [step]
    refine ok_bind (H.ok p s hf hb) (fun o _ => ?_)
    cases o.tree with
    | none => exact ok_ok _
    | some t => exact ok_bind (ok_up (cover_def _)) (fun _ _ => ok_ok _)
  | optSeq tag ps =>
    simp only [step]
    exact ok_bind (seq_def H ps s _ hf hb) (fun _ _ => ok_bind (ok_up (cover_def _)) (fun _ _ => ok_ok _))
  | plus tag p =>
    simp only [step]
    split
    · refine ok_bind (H.ok p s hf hb) (fun o ho => ?_)
      have ha := H.takes.adv _ _ _ ho
      split
      · exact ok_bind (star_def H p _ _ _ (ha.full hf) (ha.behaves hb))
          (fun _ _ => ok_bind (ok_up (cover_def _)) (fun _ _ => ok_ok _))
      · exact ok_ok _
    · exact ok_ok _
  | seq tag ps =>
    simp only [step]
    refine ok_bind (seq_def H ps s _ hf hb) (fun r hr => ?_)
    have ha := (seq_takes H.takes _ _ _ _ hr).1
    split
    · exact ok_bind (ok_up (cover_def _)) (fun _ _ => ok_ok _)
    · exact ok_bind (ok_up (complain_def (ha.full hf))) (fun _ _ => ok_ok _)
  | seqIf tag p ps =>
    simp only [step]
    refine ok_bind (H.ok p s hf hb) (fun o ho => ?_)
    have ha := H.takes.adv _ _ _ ho
    split
    · refine ok_bind (seq_def H ps _ _ (ha.full hf) (ha.behaves hb)) (fun r hr => ?_)
      have ha := ha.trans (seq_takes H.takes _ _ _ _ hr).1
      split
      · exact ok_bind (ok_up (cover_def _)) (fun _ _ => ok_ok _)
      · exact ok_bind (ok_up (complain_def (ha.full hf))) (fun _ _ => ok_ok _)
    · exact ok_ok _
  | star p =>
    simp only [step]
    exact ok_bind (star_def H p _ _ _ hf hb) (fun _ _ => ok_bind (ok_up (cover_def _)) (fun _ _ => ok_ok _))
  | stmt r => exact stmt_def hf hb
  | tagIf tag p =>
    simp only [step]
    refine ok_bind (H.ok p s hf hb) (fun o _ => ?_)
    cases o.tree with
    | none => exact ok_ok _
    | some t => exact ok_bind (ok_up (cover_def _)) (fun _ _ => ok_ok _)
  | rule r =>
    simp only [step]
    cases g r with
    | comb p => exact H.ok p s hf hb
    | exec p =>
      simp only [runBody]
      refine ok_bind (ok_up (cur_def hf)) (fun st _ => ?_)
      split
      · exact ok_ok _
      · exact H.ok p s hf hb
    | legacyDo => exact do_def H hre hf hb

theorem eval_def (hg : ∀ r, c r = true → (g r).takes k c = true) (hsp : Starved k sp) (hre : RestoresEndDo sp) :
    ∀ n, Defd k c sp (eval sp g n)
  | 0 => ⟨eval_takes hg hsp 0, fun _ _ _ _ => ok_fuel⟩
  | n + 1 => step_def hg hsp hre (eval_def hg hsp hre n)

end

theorem run_def {x : SP.Exts} (hx : x.Forward) (hn : NeedToken x) {n : Nat} {r : PR} {s : PState} (hf : Full s)
    (hb : ∀ st ∈ sentry :: s.stmts, Behaves (SP.evalRule SP.R.body x n) st) : Ok (run x n r s) :=
  (eval_def pgrammar_takes (starved hx hn n) (restoresEndDo x n) n).ok (.rule r) s hf hb

end PP
end FLPR
