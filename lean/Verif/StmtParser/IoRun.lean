import Verif.StmtParser.VarMain
/-!
# Parsers that call `io_implied_do`, as functions on lists of tokens

`io_implied_do` calls itself for what stands in its parentheses, so that it has a form only up to a depth.
-/

namespace FLPR
namespace SP
open Spec

/-- A parser term as a form with variables; `g` stands for `io_implied_do`. -/
def toW (g : VForm) : Nat → P → Option VForm
  | 0, _ => none
  | k + 1, p =>
    match (if p.good && !p.calls (fun r => R.calling.contains r) then toFormG plainBody (k + 1) p else none) with
    | some F => some (.base F)
    | none =>
      match p with
      | .alts _ ps => (vformsOf (toW g k) ps).map VForm.alts
      | .seq _ ps => if P.goodAll ps then (vformsOf (toW g k) ps).map VForm.seqs else none
      | .opt p => (toW g k p).map (fun a => .alt a (.base .eps))
      | .star p => (toW g k p).map .star
      | .tagIf _ p => toW g k p
      | .rule r =>
        if r = .«variable» then some .var
        else if r = .io_implied_do then some g
        else
          match plainBody r with
          | .comb q => if q.withTree then toW g k q else none
          | _ => none
      | _ => none

theorem acts_formW {x : Exts} (hx : GoodExts x) {s : Strm} {k : Nat} (hs : GoodStmt s) (hk : LastPair s k) {g : VForm} {b : Nat} (hb : s.lo ≤ b)
    (hg : ∀ q, b ≤ q → q ≤ s.hi → Acts x (.rule .io_implied_do) (s.goto q) (g.exec k (restOf (s.goto q)))) :
    ∀ j p V q, toW g j p = some V → b ≤ q → q ≤ s.hi → Acts x p (s.goto q) (V.exec k (restOf (s.goto q))) := by
  intro j
  induction j with
  | zero => intro p V q h; cases h
  | succ j ih =>
    intro p V q h h1 h2
    have hgd := GoodStmt_goto hs (le_trans hb h1) h2
    rw [toW.eq_def] at h
    dsimp only at h
    split at h
    · next F hF =>
      injection h with h; subst h
      split at hF
      · next hc =>
        rw [Bool.and_eq_true, Bool.not_eq_true'] at hc
        exact does_form hx hF hc.1 hc.2 hgd
      · cases hF
    · split at h
      · obtain ⟨Vs, e1, rfl⟩ := Option.map_eq_some_iff.mp h
        exact acts_alts (fun p V e => ih p V q e h1 h2) _ _ _ e1
      · split at h
        · next hgood =>
          obtain ⟨Vs, e1, rfl⟩ := Option.map_eq_some_iff.mp h
          exact acts_seq hx hs hb (fun p V q e h1 h2 => ih p V q e h1 h2) _ _ _ q e1 hgood h1 h2
        · cases h
      · obtain ⟨V', e1, rfl⟩ := Option.map_eq_some_iff.mp h
        exact acts_opt hgd (ih _ V' q e1 h1 h2)
      · obtain ⟨V', e1, rfl⟩ := Option.map_eq_some_iff.mp h
        exact acts_star hs hb (fun q h1 h2 => ih _ V' q e1 h1 h2) h1 h2
      · exact acts_tagIf (ih _ V q h h1 h2)
      · split at h
        · next hr =>
          injection h with h; subst h hr
          exact acts_variable hx hgd (lastPair_goto q hk)
        · split at h
          · next hr =>
            injection h with h; subst h hr
            exact hg q h1 h2
          · split at h
            · next hb =>
              split at h
              · next ht => exact acts_rule hb ht (ih _ V q h h1 h2)
              · cases h
            · cases h
      · cases h

def listV (a : VForm) : VForm := .seqs [a, .star (.seqs [.base (.tok Tag.TK_COMMA), a])]
def inputV (g : VForm) : VForm := .alts [g, .var]
def outputV (g : VForm) : VForm := .alts [g, .base .expr]
def objectV (g : VForm) : VForm :=
  .alts [.seqs [inputV g, .base (.notPeek Tag.TK_EQUAL)], .seqs [outputV g, .base (.notPeek Tag.TK_EQUAL)]]
def controlV : VForm :=
  .seqs [.var, .base (.tok Tag.TK_EQUAL), .base .expr, .base (.tok Tag.TK_COMMA), .base .expr,
    .base (.alt (.seqs [.tok Tag.TK_COMMA, .expr]) .eps)]
/-- What stands in the parentheses of an implied do. -/
def insideV (g : VForm) : VForm := .seqs [listV (objectV g), .base (.tok Tag.TK_COMMA), controlV]
def impliedV (g : VForm) : VForm := .seqs [.base (.tok Tag.TK_PARENL), insideV g, .base (.tok Tag.TK_PARENR)]

/-- `io_implied_do` in no more than `n` pairs of parentheses. -/
def idoV : Nat → VForm
  | 0 => .base .never
  | n + 1 => impliedV (idoV n)

def insideP : P :=
  .seq Tag.HOIST [.list Tag.SG_IO_IMPLIED_DO_OBJECT_LIST (.rule .io_implied_do_object), .tok Tag.TK_COMMA, .rule .io_implied_do_control]

theorem inside_form (g : VForm) : toW g 20 insideP = some (insideV g) := by rfl

theorem acts_ido {x : Exts} (hx : GoodExts x) {s : Strm} {k : Nat} (hs : GoodStmt s) (hk : LastPair s k) :
    ∀ n q, s.lo ≤ q → q ≤ s.hi → (restOf (s.goto q)).length < n →
      Acts x (.rule .io_implied_do) (s.goto q) ((idoV n).exec k (restOf (s.goto q))) := by
  intro n
  induction n with
  | zero => intro q _ _ h; omega
  | succ n ih =>
    intro q h1 h2 hl
    have hg := GoodStmt_goto hs h1 h2
    have tokd : ∀ t q, (P.tok t).good = true ∧ toFormG plainBody 1 (.tok t) = some (.tok t) → s.lo ≤ q → q ≤ s.hi → Does x (.tok t) (s.goto q) ((PForm.tok t).run (restOf (s.goto q))) :=
      fun t q h0 h1 h2 => does_form (k := 1) hx h0.2 h0.1 rfl (GoodStmt_goto hs h1 h2)
    refine acts_rule (q := .seq Tag.SG_IO_IMPLIED_DO [.tok Tag.TK_PARENL, insideP, .tok Tag.TK_PARENR]) rfl rfl (acts_of_seq hx hg (by decide) ?_)
    refine seqActs_cons (f := (VForm.seqs [insideV (idoV n), .base (.tok Tag.TK_PARENR)]).exec k) hs h1
      (a := .acts ((PForm.tok Tag.TK_PARENL).run (restOf (s.goto q)))) (tokd _ q (by decide) h1 h2) ?_
    intro q' h3 h4 he
    injection he with he
    have l1 : (restOf (s.goto q)).length = s.hi - q := restOf_length hg
    have l2 : (restOf (s.goto q')).length = s.hi - q' := restOf_length (GoodStmt_goto hs (le_trans h1 h3) h4)
    obtain ⟨c, e, _⟩ := take1_sound (show PForm.take1 _ _ = some _ from he)
    have l3 := congrArg List.length e
    rw [List.length_append, List.length_singleton] at l3
    have hin : ∀ q2, q' ≤ q2 → q2 ≤ s.hi → Acts x (.rule .io_implied_do) (s.goto q2) ((idoV n).exec k (restOf (s.goto q2))) := by
      intro q2 h5 h6
      have l4 : (restOf (s.goto q2)).length = s.hi - q2 := restOf_length (GoodStmt_goto hs (by omega) h6)
      exact ih q2 (by omega) h6 (by omega)
    refine seqActs_cons (f := (VForm.seqs [.base (.tok Tag.TK_PARENR)]).exec k) hs (le_trans h1 h3)
      (acts_formW hx hs hk (le_trans h1 h3) hin 20 insideP _ q' (inside_form _) (le_refl _) h4) ?_
    intro q2 h5 h6 _
    refine seqActs_cons (f := (VForm.seqs []).exec k) hs (by omega)
      (a := .acts ((PForm.tok Tag.TK_PARENR).run (restOf (s.goto q2)))) (tokd _ q2 (by decide) (by omega) h6) ?_
    intro q3 _ _ _
    exact rfl

/-- A parser that may call `io_implied_do`, in a whole statement. -/
theorem acts_wholeW {x : Exts} (hx : GoodExts x) {s : Strm} (hs : WholeStmt s) {r : R} {F : VForm → VForm}
    (hF : ∀ g, toW g 40 (.rule r) = some (F g)) {k : Nat} (hk : LastPair s k) :
    Acts x (.rule r) s ((F (idoV ((restOf s).length + 1))).exec k (restOf s)) := by
  have hg := (whole_fresh hs).good
  have h := acts_formW hx hg hk (b := s.pos) hg.lo_pos (g := idoV ((restOf s).length + 1)) ?_ 40 (.rule r) _ s.pos (hF _) (le_refl _) hg.pos_hi
  · exact h
  · intro q h1 h2
    have l1 : (restOf s).length = s.hi - s.pos := restOf_length hg
    have l2 : (restOf (s.goto q)).length = s.hi - q := restOf_length (GoodStmt_goto hg (le_trans hg.lo_pos h1) h2)
    exact acts_ido hx hg hk _ q (le_trans hg.lo_pos h1) h2 (by omega)

end SP
end FLPR
