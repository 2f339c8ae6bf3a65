import Verif.Program.Term
import Verif.StmtParser.ParserProps
/-!
# The tables of the program grammar, and what the statement parsers do for it
-/

namespace FLPR
namespace Spec
open SP

/-- Extensions that do not match a statement without tokens. -/
def NeedToken (x : Exts) : Prop :=
  ∀ e ∈ x.action ++ x.other, ∀ s t q, s.pos = s.hi → e s ≠ .ok (some t, q)

end Spec

namespace PP
open Spec
open SP (R SNode Rng Strm PRes PFail up up_ok Conv Exts)

/-- A test of every rule. -/
theorem PR.forall_of {q : PR → Bool} (h : PR.all.all q = true) (r : PR) : q r = true :=
  List.all_eq_true.mp h r (PR.mem_all r)

/-- The statement parsers that do not match a statement without tokens. -/
def needsToken (r : R) : Bool := r.takes || r == .action_stmt || r == .other_specification_stmt

/-- The program level parsers that can match without taking a statement. -/
def PR.mayTakeNone : List PR :=
  [.block, .block_specification_part, .component_part, .implicit_part, .specification_part]

/-- The others. -/
def PR.takes (r : PR) : Bool := !PR.mayTakeNone.contains r

/-- A parser calls only parsers of lower rank before it takes a statement. -/
def PR.rank : PR → Nat
  | .block => 3
  | .block_specification_part => 5
  | .declaration_construct => 4
  | .executable_construct => 1
  | .execution_part => 2
  | .execution_part_construct => 2
  | .external_subprogram => 1
  | .forall_body_construct => 1
  | .implicit_part => 1
  | .interface_block => 2
  | .interface_specification => 1
  | .internal_subprogram => 1
  | .main_program => 6
  | .module_subprogram => 1
  | .program => 8
  | .program_unit => 7
  | .specification_construct => 3
  | .specification_part => 5
  | .where_body_construct => 1
  | _ => 0

theorem pgrammar_takes (r : PR) (h : r.takes = true) : (PR.body r).takes needsToken PR.takes = true := by
  have : (!r.takes || (PR.body r).takes needsToken PR.takes) = true :=
    PR.forall_of (q := fun r => !r.takes || (PR.body r).takes needsToken PR.takes) (by decide +kernel) r
  rw [h] at this
  simpa using this

theorem pgrammar_descends (r : PR) : (PR.body r).descends needsToken PR.takes PR.rank r.rank = true :=
  PR.forall_of (q := fun r => (PR.body r).descends needsToken PR.takes PR.rank r.rank) (by decide +kernel) r

theorem rank_le (r : PR) : r.rank < 9 := by
  have := PR.forall_of (q := fun r => decide (r.rank < 9)) (by decide +kernel) r
  simpa using this

mutual
theorem left_top : ∀ p : T, p.left needsToken PR.takes PR.rank 9 = true
  | .rule r => by rw [T.left]; simpa using rank_le r
  | .seq _ ps => by rw [T.left]; exact leftSeq_top ps
  | .optSeq _ ps => by rw [T.left]; exact leftSeq_top ps
  | .seqIf _ p ps => by rw [T.left, left_top p, leftSeq_top ps]; simp
  | .alts _ ps => by rw [T.left]; exact leftAll_top ps
  | .star p => by rw [T.left]; exact left_top p
  | .plus _ p => by rw [T.left]; exact left_top p
  | .opt p => by rw [T.left]; exact left_top p
  | .tagIf _ p => by rw [T.left]; exact left_top p
  | .endStream => rfl
  | .stmt _ => rfl
theorem leftSeq_top : ∀ ps : List T, T.leftSeq needsToken PR.takes PR.rank 9 ps = true
  | [] => rfl
  | p :: ps => by rw [T.leftSeq, left_top p, leftSeq_top ps]; simp
theorem leftAll_top : ∀ ps : List T, T.leftAll needsToken PR.takes PR.rank 9 ps = true
  | [] => rfl
  | p :: ps => by rw [T.leftAll, left_top p, leftAll_top ps]; simp
end

/-! ### The statement parsers -/

theorem extLoop_starved {x : Exts} (hx : NeedToken x) {tag : Int} {m : Nat} {s : Strm} (hs : s.pos = s.hi) (hm : m = s.pos) :
    ∀ es, (∀ e ∈ es, e ∈ x.action ++ x.other) → ∀ t q, SP.extLoop tag m es s ≠ .ok (some t, q)
  | [], _, t, q, h => by simp only [SP.extLoop] at h; injection h with h; cases h
  | e :: es, he, t, q, h => by
    rw [SP.extLoop] at h
    rbind h with w hw
    obtain ⟨w1, w2⟩ := w
    cases w1 with
    | some n => exact hx e (he e (by simp)) s n w2 hs hw
    | none =>
      simp only at h
      subst hm
      have e0 : s.goto s.pos = s := rfl
      exact extLoop_starved hx hs rfl es (fun e' h' => he e' (by simp [h'])) t q h

/-- The parsers that are given an extension. -/
theorem withExts_takes (r : R) (h : r = .action_stmt ∨ r = .other_specification_stmt) :
    ∃ a p, SP.R.body r = .withExts a p ∧ p.takes SP.R.takes = true := by
  rcases h with rfl | rfl
  · exact ⟨_, _, rfl, by decide +kernel⟩
  · exact ⟨_, _, rfl, by decide +kernel⟩

/-- No statement parser that needs a token matches the hidden statement. -/
theorem starved {x : Exts} (hx : x.Forward) (hn : NeedToken x) (n : Nat) : Starved needsToken (SP.evalRule SP.R.body x n) := by
  have H := SP.eval_takes (g := SP.R.body) (c := SP.R.takes) hx SP.grammar_takes n
  have none : ∀ s : Strm, SP.Took sentryStrm s → False := by
    intro s h
    have h1 := h.1
    have h2 := h.2
    simp [sentryStrm] at h1 h2
    omega
  intro r hr t q h
  simp only [needsToken, Bool.or_eq_true, beq_iff_eq] at hr
  rw [or_assoc] at hr
  rcases hr with hr | hr
  · exact none _ (SP.runBody_takes H (SP.grammar_takes r hr) h rfl)
  · obtain ⟨a, p, hb, hp⟩ := withExts_takes r hr
    rw [SP.evalRule, hb, SP.runBody] at h
    pbind h with o ho
    by_cases hk : o.ok = true
    · exact none _ (H.ok _ _ _ hp ho hk)
    · have hg := SP.grammar_good r
      rw [hb, SP.Body.good, Bool.and_eq_true] at hg
      rw [if_neg hk, (SP.eval_restores _ x n p _ o hg.2 ho (by simpa using hk)).1] at h
      have h := up_ok h
      rw [SP.runExts] at h
      cases a with
      | true => exact extLoop_starved (s := sentryStrm) hn rfl rfl _ (fun e he => by simp [he]) _ _ h
      | false => exact extLoop_starved (s := sentryStrm) hn rfl rfl _ (fun e he => by simp [he]) _ _ h

/-- The statement parsers that the program level uses. -/
def usedStmts (r : R) : Bool := r.rootTag != Tag.HOIST

theorem pgrammar_only (r : PR) : (PR.body r).only usedStmts = true :=
  PR.forall_of (q := fun r => (PR.body r).only usedStmts) (by decide +kernel) r

theorem noHoist (x : Exts) (n : Nat) : NoHoist usedStmts (SP.evalRule SP.R.body x n) := by
  intro r hr s t q h
  have := SP.runBody_tag (SP.eval_tag (x := x) SP.grammar_rootTag n) (SP.grammar_rootTag r) h rfl
  rw [this]
  simpa [usedStmts] using hr

/-! ### Calls of the library -/

theorem run_inv {x : Exts} {n : Nat} {r : PR} {s : PState} {o : POut} (h : run x n r s = .ok o) : Inv s o :=
  eval_inv (noHoist x n) pgrammar_only n (.rule r) s o rfl h

theorem run_takes {x : Exts} (hx : x.Forward) (hn : NeedToken x) (n : Nat) :
    Takes needsToken PR.takes (eval (SP.evalRule SP.R.body x n) PR.body n) :=
  eval_takes pgrammar_takes (starved hx hn n) n

theorem run_conv {x : Exts} (hx : x.Forward) (hn : NeedToken x) (r : PR) (s : PState) (hf : Full s) :
    Conv (fun n => run x n r s) :=
  eval_conv (SPn := fun n => SP.evalRule SP.R.body x n) (fun r s => SP.evalRule_conv hx r s)
    (fun n => starved hx hn n) pgrammar_takes pgrammar_descends left_top s.rem 9 (sizeOf (T.rule r)) (.rule r) s 0
    (left_top _) rfl (le_refl _) hf (le_refl _)

end PP
end FLPR
