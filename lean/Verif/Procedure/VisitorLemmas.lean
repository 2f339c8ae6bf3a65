import Verif.Procedure.Visitor
import Verif.Procedure.VisitorSpec
import Verif.Procedure.Parsed
/-!
# Lemmas for C66: what the visitor calls
-/

namespace FLPR
namespace Vis
open PP Spec Proc
open SP (R Exts)

/-! ### Calls one after the other -/

variable {σ : Type}

theorem callAll_append (act : Act σ) : ∀ (a b : List Found) (r : σ × Bool),
    callAll act (a ++ b) r = (callAll act a r >>= callAll act b)
  | [], b, r => rfl
  | f :: a, b, r => by
    simp only [List.cons_append, callAll]
    cases act r.1 f.path (decide (0 < f.depth)) f.inModule with
    | error e => rfl
    | ok v => exact callAll_append act a b _

theorem callAll_flag (act : Act σ) : ∀ (a : List Found) (s : σ) (b : Bool),
    callAll act a (s, b) = (callAll act a (s, false) >>= fun v => .ok (v.1, b || v.2))
  | [], s, b => by simp [callAll, Res.ok_bind]
  | f :: a, s, b => by
    simp only [callAll]
    cases act s f.path (decide (0 < f.depth)) f.inModule with
    | error e => rfl
    | ok v =>
      show callAll act a (v.1, b || v.2) = (callAll act a (v.1, false || v.2) >>= fun v => .ok (v.1, b || v.2))
      rw [callAll_flag act a v.1 (b || v.2), callAll_flag act a v.1 (false || v.2)]
      cases callAll act a (v.1, false) with
      | error e => rfl
      | ok w => simp [Res.ok_bind, Bool.or_assoc]

/-- One step of a loop over things to visit. -/
theorem call_step (act : Act σ) {m : σ → Res (σ × Bool)} {a b : List Found}
    (h : ∀ s, m s = callAll act a (s, false)) (r : σ × Bool) :
    (m r.1 >>= fun v => callAll act b (v.1, r.2 || v.2)) = callAll act (a ++ b) r := by
  rw [callAll_append, h, show callAll act a r = callAll act a (r.1, r.2) from rfl, callAll_flag act a r.1 r.2]
  cases callAll act a (r.1, false) with
  | error e => rfl
  | ok v => rfl

/-! ### Trees without procedures -/

def Sh.tag' : Sh → Int
  | .leaf _ t => t
  | .inner t _ => t

/-- No node of the shapes has the tag of a procedure. -/
def Quiet (f : List Sh) : Prop := ∀ y ∈ shsAll f, Sh.tag' y ∉ procTags

theorem quiet_nil : Quiet [] := by intro y hy; cases hy

theorem quiet_append {a b : List Sh} (h1 : Quiet a) (h2 : Quiet b) : Quiet (a ++ b) := by
  intro y hm
  rw [shsAll_append] at hm
  rcases List.mem_append.mp hm with hm | hm
  · exact h1 y hm
  · exact h2 y hm

theorem quiet_inner {tag : Int} {f : List Sh} (h : Quiet f) (ht : tag ∉ procTags) : Quiet [.inner tag f] := by
  intro y hm
  simp only [shsAll, shs, List.append_nil] at hm
  rcases List.mem_cons.mp hm with rfl | hm
  · exact ht
  · exact h y hm

theorem quiet_under {tag : Int} {f : List Sh} (h : Quiet f) (ht : tag ∉ procTags) : Quiet (under tag f) := by
  rw [under]
  split
  · exact h
  · exact quiet_inner h ht

/-- The rules below which there are no procedures. -/
def quietRule (r : PR) : Bool :=
  match r with
  | .program => false
  | .program_unit => false
  | .external_subprogram => false
  | .module_ => false
  | .main_program => false
  | .function_subprogram => false
  | .subroutine_subprogram => false
  | .separate_module_subprogram => false
  | .internal_subprogram => false
  | .internal_subprogram_part => false
  | .module_subprogram => false
  | .module_subprogram_part => false
  | _ => true

mutual
/-- The term neither gives the tag of a procedure nor calls a rule that may. -/
def still : T → Bool
  | .alts tag ps => decide (tag ∉ procTags) && stillAll ps
  | .endStream => true
  | .opt p => still p
  | .optSeq tag ps => decide (tag ∉ procTags) && stillAll ps
  | .plus tag p => decide (tag ∉ procTags) && still p
  | .seq tag ps => decide (tag ∉ procTags) && stillAll ps
  | .seqIf tag p ps => decide (tag ∉ procTags) && still p && stillAll ps
  | .star p => still p
  | .stmt _ => true
  | .tagIf tag p => decide (tag ∉ procTags) && still p
  | .rule r => quietRule r
def stillAll : List T → Bool
  | [] => true
  | p :: ps => still p && stillAll ps
end

def stillBody : PBody → Bool
  | .comb p => still p
  | .exec p => still p
  | .legacyDo => true

theorem quietRule_body (r : PR) (h : quietRule r = true) : stillBody (PR.body r) = true := by
  have := PR.forall_of (q := fun r => !quietRule r || stillBody (PR.body r)) (by decide +kernel) r
  rw [h] at this
  simpa using this

theorem stillAll_mem {ps : List T} (h : stillAll ps = true) {p : T} (hp : p ∈ ps) : still p = true := by
  induction ps with
  | nil => cases hp
  | cons q ps ih =>
    simp only [stillAll, Bool.and_eq_true] at h
    rcases List.mem_cons.mp hp with rfl | hp
    · exact h.1
    · exact ih h.2 hp

theorem stillAll_append {a b : List T} (h : stillAll (a ++ b) = true) : stillAll a = true := by
  induction a with
  | nil => rfl
  | cons q a ih =>
    simp only [List.cons_append, stillAll, Bool.and_eq_true] at h ⊢
    exact ⟨h.1, ih h.2⟩

section
variable {L : R → Nat → Int → Prop} (hL : ∀ r i t, L r i t → t ∉ procTags)
set_option linter.unusedSectionVars false
include hL

theorem quiet_leaf {r : R} {i : Nat} {t : Int} (h : L r i t) : Quiet [.leaf i t] := by
  intro y hm
  simp only [shsAll, shs, List.append_nil, List.mem_singleton] at hm
  subst hm
  exact hL _ _ _ h

mutual
theorem derives_quiet : ∀ {p : T} {f : List Sh}, Derives L PR.body p f → still p = true → Quiet f
  | _, _, .alts hm h, hp => by
    simp only [still, Bool.and_eq_true, decide_eq_true_eq] at hp
    exact quiet_under (derives_quiet h (stillAll_mem hp.2 hm)) hp.1
  | _, _, .endStream, _ => quiet_nil
  | _, _, .optNo _, _ => quiet_nil
  | _, _, .opt h, hp => derives_quiet h (by simpa [still] using hp)
  | _, _, .optSeq h, hp => by
    simp only [still, Bool.and_eq_true, decide_eq_true_eq] at hp
    exact quiet_under (derivesSeq_quiet h (stillAll_append hp.2)) hp.1
  | _, _, .plus h h', hp => by
    simp only [still, Bool.and_eq_true, decide_eq_true_eq] at hp
    exact quiet_under (quiet_append (derives_quiet h hp.2) (derivesRep_quiet h' hp.2)) hp.1
  | _, _, .seq h, hp => by
    simp only [still, Bool.and_eq_true, decide_eq_true_eq] at hp
    exact quiet_under (derivesSeq_quiet h hp.2) hp.1
  | _, _, .seqIf h, hp => by
    simp only [still, Bool.and_eq_true, decide_eq_true_eq] at hp
    exact quiet_under (derivesSeq_quiet h (by simp [stillAll, hp.1.2, hp.2])) hp.1.1
  | _, _, .star h, hp => derivesRep_quiet h (by simpa [still] using hp)
  | _, _, .stmt h, _ => quiet_leaf hL h
  | _, _, .tagNo _ h, _ => quiet_nil
  | _, _, .tagIf h, hp => by
    simp only [still, Bool.and_eq_true, decide_eq_true_eq] at hp
    exact quiet_under (derives_quiet h hp.2) hp.1
  | .rule r, _, .comb hr h, hp => by
    have := quietRule_body r (by simpa [still] using hp)
    rw [hr] at this
    exact derives_quiet h this
  | .rule r, _, .exec hr h, hp => by
    have := quietRule_body r (by simpa [still] using hp)
    rw [hr] at this
    exact derives_quiet h this
  | _, _, .doEnd _ h1 h h2, _ =>
    quiet_inner (quiet_append (quiet_leaf hL h1) (quiet_append (quiet_inner (derivesRep_quiet h rfl) (by decide))
      (h2.elim (quiet_leaf hL) (quiet_leaf hL)))) (by decide)
  | _, _, .doAction _ h1 h h2 hq, _ => by
    refine quiet_inner (quiet_inner (quiet_append (quiet_leaf hL h1) (quiet_append (quiet_inner (derivesRep_quiet h rfl) (by decide))
      (quiet_inner (quiet_leaf hL h2) ?_))) ?_) (by decide)
    all_goals
      simp only [List.mem_cons, List.not_mem_nil, or_false] at hq
      rcases hq with rfl | rfl | rfl <;> decide
theorem derivesSeq_quiet : ∀ {ps : List T} {f : List Sh}, DerivesSeq L PR.body ps f → stillAll ps = true → Quiet f
  | _, _, .nil, _ => quiet_nil
  | _, _, .cons h h', hp => by
    simp only [stillAll, Bool.and_eq_true] at hp
    exact quiet_append (derives_quiet h hp.1) (derivesSeq_quiet h' hp.2)
theorem derivesRep_quiet : ∀ {p : T} {f : List Sh}, DerivesRep L PR.body p f → still p = true → Quiet f
  | _, _, .nil, _ => quiet_nil
  | _, _, .cons h h', hp => quiet_append (derives_quiet h hp) (derivesRep_quiet h' hp)
end
end

theorem erase_tag' (k : PNode) : Sh.tag' (erase k) = k.tag := by
  obtain ⟨t, r, i, ks⟩ := k
  cases i <;> rfl

mutual
theorem procsIn_quiet : ∀ (k : PNode) (p : List Nat) (d : Nat) (m : Bool), (∀ n ∈ nodesOf k, n.tag ∉ procTags) → procsIn p d m k = []
  | .node t r i ks, p, d, m, h => by
    rw [nodesOf] at h
    rw [procsIn, if_neg (show t ∉ procTags from h _ (List.mem_cons_self ..))]
    exact procsInAll_quiet ks _ _ _ _ (fun n hn => h n (by simp [hn]))
theorem procsInAll_quiet : ∀ (ks : List PNode) (p : List Nat) (i d : Nat) (m : Bool), (∀ n ∈ nodesOfAll ks, n.tag ∉ procTags) →
    procsInAll p i d m ks = []
  | [], _, _, _, _, _ => rfl
  | k :: ks, p, i, d, m, h => by
    rw [nodesOfAll] at h
    rw [procsInAll, procsIn_quiet k _ _ _ (fun n hn => h n (by simp [hn])),
      procsInAll_quiet ks _ _ _ _ (fun n hn => h n (by simp [hn]))]
    rfl
end

theorem quietAll {ks : List PNode} (ht : TreesOk ks) (hq : Quiet (eraseAll ks)) (p : List Nat) (i d : Nat) (m : Bool) :
    procsInAll p i d m ks = [] := by
  refine procsInAll_quiet ks p i d m (fun n hn => ?_)
  have := hq _ (eraseAll_shs ks ht n hn).2
  rwa [erase_tag'] at this

theorem procsInAll_append : ∀ (a b : List PNode) (p : List Nat) (i d : Nat) (m : Bool),
    procsInAll p i d m (a ++ b) = procsInAll p i d m a ++ procsInAll p (i + a.length) d m b
  | [], b, p, i, d, m => by simp [procsInAll]
  | k :: a, b, p, i, d, m => by
    rw [List.cons_append, procsInAll, procsInAll, procsInAll_append a b, List.append_assoc, List.length_cons,
      show i + 1 + a.length = i + (a.length + 1) by omega]

end Vis
end FLPR
