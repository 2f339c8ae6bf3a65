import Verif.Program.Takes
import Verif.StmtParser.Term
/-!
# Every program level parser returns, on a whole list of statements
-/

namespace FLPR
namespace PP
open Spec
open SP (R SNode Rng Strm PRes PFail up up_ok Conv)

section ranks
variable (k : R → Bool) (c : PR → Bool) (rk : PR → Nat) (ρ : Nat)

mutual
/-- Only rules of rank below `ρ` are called before a statement has been taken. -/
def T.left : T → Bool
  | .alts _ ps => T.leftAll ps
  | .endStream => true
  | .opt p => p.left
  | .optSeq _ ps => T.leftSeq ps
  | .plus _ p => p.left
  | .seq _ ps => T.leftSeq ps
  | .seqIf _ p ps => p.left && (p.takes k c || T.leftSeq ps)
  | .star p => p.left
  | .stmt _ => true
  | .tagIf _ p => p.left
  | .rule r => rk r < ρ
def T.leftSeq : List T → Bool
  | [] => true
  | p :: ps => p.left && (p.takes k c || T.leftSeq ps)
def T.leftAll : List T → Bool
  | [] => true
  | p :: ps => p.left && T.leftAll ps
end

/-- A match of this takes a statement if there is one. -/
def T.moves : T → Bool
  | .stmt _ => true
  | p => p.takes k c

mutual
/-- What is repeated takes a statement, all the way down. -/
def T.starsTake : T → Bool
  | .alts _ ps => T.starsTakeAll ps
  | .endStream => true
  | .opt p => p.starsTake
  | .optSeq _ ps => T.starsTakeAll ps
  | .plus _ p => p.moves k c && p.starsTake
  | .seq _ ps => T.starsTakeAll ps
  | .seqIf _ p ps => p.starsTake && T.starsTakeAll ps
  | .star p => p.moves k c && p.starsTake
  | .stmt _ => true
  | .tagIf _ p => p.starsTake
  | .rule _ => true
def T.starsTakeAll : List T → Bool
  | [] => true
  | p :: ps => p.starsTake && T.starsTakeAll ps
end

def PBody.descends : PBody → Bool
  | .comb p => p.left k c rk ρ && p.starsTake k c
  | .exec p => p.left k c rk ρ && p.starsTake k c
  | .legacyDo => k .do_stmt && c .execution_part_construct

end ranks

/-- How many statements are left. -/
def PState.rem (s : PState) : Nat := s.hi - s.pos

theorem PAdv.rem {s s' : PState} (h : PAdv s s') : s'.rem ≤ s.rem := by
  have := h.pos
  rw [PState.rem, PState.rem, h.hi]; omega

theorem PAdv.rem_lt {s s' : PState} (h : PAdv s s') (hf : Full s) (ht : s.pos < s'.pos) : s'.rem < s.rem := by
  have := h.bound hf.2
  rw [PState.rem, PState.rem, h.hi]; omega

section conv
variable {k : R → Bool} {c : PR → Bool} {rk : PR → Nat} {F : Nat → T → PState → PRes POut}

theorem mem_starsTake {ps : List T} (h : T.starsTakeAll k c ps = true) : ∀ q ∈ ps, q.starsTake k c = true := by
  induction ps with
  | nil => simp
  | cons p ps ih =>
    rw [T.starsTakeAll, Bool.and_eq_true] at h
    intro q hq
    rcases List.mem_cons.mp hq with rfl | hq
    · exact h.1
    · exact ih h.2 q hq

theorem mem_leftAll {ρ : Nat} {ps : List T} (h : T.leftAll k c rk ρ ps = true) :
    ∀ q ∈ ps, q.left k c rk ρ = true := by
  induction ps with
  | nil => simp
  | cons p ps ih =>
    rw [T.leftAll, Bool.and_eq_true] at h
    intro q hq
    rcases List.mem_cons.mp hq with rfl | hq
    · exact h.1
    · exact ih h.2 q hq

theorem alts_conv (H : ∀ n, Takes k c (F n)) {s : PState} :
    ∀ ps s', PAdv s s' → (∀ q ∈ ps, ∀ s', PAdv s s' → Conv (fun n => F n q s')) →
    Conv (fun n => altsLoop (F n) ps s') := by
  intro ps
  induction ps with
  | nil => intro s' _ _; exact .ok _
  | cons p ps ih =>
    intro s' hs hc
    simp only [altsLoop]
    refine (hc p (by simp) s' hs).bind (fun o n ho => ?_)
    refine .ite (fun _ => .ok _) (fun _ => ?_)
    exact ih _ (hs.trans ((H n).adv _ _ _ ho)) (fun q hq => hc q (by simp [hq]))

theorem seq_conv_later (H : ∀ n, Takes k c (F n)) {s : PState} :
    ∀ ps s' acc, PAdv s s' → s.pos < s'.pos →
    (∀ q ∈ ps, ∀ s', PAdv s s' → s.pos < s'.pos → Conv (fun n => F n q s')) →
    Conv (fun n => seqLoop (F n) ps s' acc) := by
  intro ps
  induction ps with
  | nil => intro s' acc _ _ _; exact .ok _
  | cons p ps ih =>
    intro s' acc hs ht hc
    simp only [seqLoop]
    refine (hc p (by simp) s' hs ht).bind (fun o n ho => ?_)
    have ha := (H n).adv _ _ _ ho
    refine .ite (fun _ => ?_) (fun _ => .ok _)
    exact ih _ _ (hs.trans ha) (by have := ha.pos; omega) (fun q hq => hc q (by simp [hq]))

theorem seq_conv (H : ∀ n, Takes k c (F n)) {s : PState} (hf : Full s) {ρ : Nat} :
    ∀ ps s' acc, PAdv s s' → T.leftSeq k c rk ρ ps = true →
    (∀ q ∈ ps, q.left k c rk ρ = true → ∀ s', PAdv s s' → Conv (fun n => F n q s')) →
    (∀ q ∈ ps, ∀ s', PAdv s s' → s.pos < s'.pos → Conv (fun n => F n q s')) →
    Conv (fun n => seqLoop (F n) ps s' acc) := by
  intro ps
  induction ps with
  | nil => intro s' acc _ _ _ _; exact .ok _
  | cons p ps ih =>
    intro s' acc hs hl hc1 hc2
    rw [T.leftSeq, Bool.and_eq_true, Bool.or_eq_true] at hl
    simp only [seqLoop]
    refine (hc1 p (by simp) hl.1 s' hs).bind (fun o n ho => ?_)
    have ha := (H n).adv _ _ _ ho
    refine .ite (fun hok => ?_) (fun _ => .ok _)
    rcases hl.2 with h | h
    · exact seq_conv_later H _ _ _ (hs.trans ha)
        (by have := (H n).took _ _ _ ho h (hs.full hf) hok; have := hs.pos; omega)
        (fun q hq => hc2 q (by simp [hq]))
    · exact ih _ _ (hs.trans ha) h (fun q hq => hc1 q (by simp [hq])) (fun q hq => hc2 q (by simp [hq]))

/-- One more turn of a loop is a turn further on. -/
theorem star_conv (H : ∀ n, Takes k c (F n)) {s : PState} (hf : Full s) {p : T}
    (hm : ∀ n s' o, PAdv s s' → s'.good = true → F n p s' = .ok o → o.ok = true → s'.pos < o.s.pos)
    (hc : ∀ s', PAdv s s' → Conv (fun n => F n p s')) :
    ∀ m s' acc j, PAdv s s' → s'.rem ≤ m → Conv (fun n => starLoop (F (n + j)) p n s' acc) := by
  intro m
  induction m using Nat.strong_induction_on with
  | _ m ih =>
    intro s' acc j hs hr
    refine Conv.unshift ?_
    simp only [starLoop]
    refine .ite (fun hg => ?_) (fun _ => .ok _)
    have h1 : Conv (fun n => F (n + 1 + j) p s') := by
      have := (hc s' hs).shift (1 + j)
      simpa only [Nat.add_assoc] using this
    refine h1.bind (fun o n ho => ?_)
    refine .ite (fun hok => ?_) (fun _ => .ok _)
    have ha := (H _).adv _ _ _ ho
    have hlt := ha.rem_lt (hs.full hf) (hm _ _ _ hs hg ho hok)
    have := ih o.s.rem (by omega) o.s (attachTree acc o.tree) (1 + j) (hs.trans ha) (le_refl _)
    simpa only [Nat.add_assoc] using this

theorem block_conv (H : ∀ n, Takes k c (F n)) {s : PState} (hf : Full s) (hk : c .execution_part_construct = true)
    (hc : ∀ s', PAdv s s' → Conv (fun n => F n (.rule .execution_part_construct) s')) :
    ∀ m s' acc j, PAdv s s' → s'.rem ≤ m → Conv (fun n => blockLoop (F (n + j)) n s' acc) := by
  intro m
  induction m using Nat.strong_induction_on with
  | _ m ih =>
    intro s' acc j hs hr
    refine Conv.unshift ?_
    simp only [blockLoop]
    have h1 : Conv (fun n => F (n + 1 + j) (.rule .execution_part_construct) s') := by
      have := (hc s' hs).shift (1 + j)
      simpa only [Nat.add_assoc] using this
    refine h1.bind (fun o n ho => ?_)
    cases ht : o.tree with
    | none => exact .ok _
    | some t =>
      have hok : o.ok = true := by
        cases h : o.ok with
        | true => rfl
        | false => rw [(H _).none _ _ _ ho h] at ht; cases ht
      have ha := (H _).adv _ _ _ ho
      have hlt := ha.rem_lt (hs.full hf) ((H _).took _ _ _ ho hk (hs.full hf) hok)
      have := ih o.s.rem (by omega) o.s (hoistBack acc t) (1 + j) (hs.trans ha) (le_refl _)
      simpa only [Nat.add_assoc] using this

/-! ### The do construct -/

variable {S : Nat → StmtP} (hS : ∀ r s, Conv (fun n => S n r s))

include hS in
theorem endPlain_conv (st : LStmt) (s : PState) : Conv (fun n => endPlain (S n) st s) := by
  simp only [endPlain]
  refine (hS _ _).bind (fun o _ _ => ?_)
  cases o.1 <;> exact .ok _

include hS in
theorem endShared_conv (lv : Int) (st : LStmt) (s : PState) : Conv (fun n => endShared (S n) lv st s) := by
  simp only [endShared]
  refine (hS _ _).bind (fun o _ _ => ?_)
  cases o.1 with
  | none => exact .ok _
  | some e => exact (Conv.up _).bind (fun _ _ _ => .ok _)

include hS in
theorem endSingle_conv (st : LStmt) (s : PState) : Conv (fun n => endSingle (S n) st s) := by
  simp only [endSingle]
  refine (hS _ _).bind (fun o _ _ => ?_)
  cases o.1 with
  | some e => exact (Conv.up _).bind (fun _ _ _ => .ok _)
  | none =>
    refine (hS _ _).bind (fun o2 _ _ => ?_)
    cases o2.1 with
    | none => exact .ok _
    | some e => exact (Conv.up _).bind (fun _ _ _ => .ok _)

include hS in
theorem doEnd_conv (s : PState) : Conv (fun n => doEnd (S n) s) := by
  simp only [doEnd]
  refine (Conv.up _).bind (fun st _ _ => ?_)
  refine .ite (fun _ => endPlain_conv hS _ _) (fun _ => ?_)
  refine (Conv.up _).bind (fun lv _ _ => ?_)
  refine .ite (fun _ => .const (by simp)) (fun _ => ?_)
  exact .ite (fun _ => endShared_conv hS _ _ _) (fun _ => endSingle_conv hS _ _)

include hS in
theorem do_conv (H : ∀ n, Takes k c (F n)) (hsp : ∀ n, Starved k (S n)) {s : PState} (hf : Full s) (hk : k .do_stmt = true)
    (hx : c .execution_part_construct = true)
    (hc : ∀ s', PAdv s s' → s.pos < s'.pos → Conv (fun n => F n (.rule .execution_part_construct) s')) :
    Conv (fun n => runDo (S n) (F n) n s) := by
  simp only [runDo]
  refine (Conv.up _).bind (fun st _ hst => ?_)
  refine (hS _ _).bind (fun o n ho => ?_)
  obtain ⟨o1, o2⟩ := o
  cases o1 with
  | none => exact .ok _
  | some t =>
    refine (Conv.up _).bind (fun label _ _ => ?_)
    obtain ⟨e1, e2, e3⟩ := stack_pos s label
    have hne : s.pos ≠ s.hi := by
      intro hp
      have := cur_end (up_ok hst) (by rw [hp, hf.1])
      subst this
      exact hsp n _ hk _ _ ho
    have a1 : PAdv s (PState.advance (PState.attach
        (if label > 0 then { s with stack := s.stack.push label } else s) t)) :=
      ((PAdv.refl s).same e3 e2 e1).trans (PAdv.taken _ t)
    have hp := taken_pos (s := if label > 0 then { s with stack := s.stack.push label } else s) t
      (by rw [e1, e2]; exact hne)
    have h1 := block_conv H (a1.full hf) hx (fun s' hs' => hc s' (a1.trans hs') (by have := hs'.pos; omega))
      _ _ (.node Tag.PG_BLOCK none none []) 0 (PAdv.refl _) (le_refl _)
    refine Conv.bind (a := fun n => blockLoop (F n) n _ _) h1 (fun r _ _ => ?_)
    refine (doEnd_conv hS _).bind (fun e _ _ => ?_)
    cases e.1 with
    | none => exact .ok _
    | some d => exact (Conv.up _).bind (fun _ _ _ => .ok _)

theorem sizeOf_mem {q : T} {ps : List T} (h : q ∈ ps) : sizeOf q < sizeOf ps := List.sizeOf_lt_of_mem h

theorem seqEnd_conv (r : PNode × Bool × PState) : Conv (fun _ => (if r.2.1 then do
        let n ← up (coverBranches r.1)
        .ok ⟨some n, true, r.2.2⟩
      else do
        let s' ← up r.2.2.complain
        .ok (noMatch s'.giveUp) : PRes POut)) := by
  refine .ite (fun _ => (Conv.up _).bind (fun _ _ _ => .ok _)) (fun _ => ?_)
  exact (Conv.up _).bind (fun _ _ _ => .ok _)

/-- What is repeated moves. -/
theorem moves_took (H : ∀ n, Takes k c (F n))
    (hst : ∀ n r s' o, F n (.stmt r) s' = .ok o → s'.pos ≠ s'.hi → Full s' → o.ok = true → s'.pos < o.s.pos)
    {p : T} (hp : p.moves k c = true) : ∀ n s' o, s'.good = true → Full s' → F n p s' = .ok o → o.ok = true →
    s'.pos < o.s.pos := by
  intro n s' o hg hf ho hok
  have hg' : s'.pos ≠ s'.hi := by simpa [PState.good] using hg
  cases p with
  | stmt r => exact hst n r s' o ho hg' hf hok
  | alts _ _ => exact (H n).took _ _ _ ho hp hf hok
  | endStream => cases hp
  | opt _ => cases hp
  | optSeq _ _ => cases hp
  | plus _ _ => exact (H n).took _ _ _ ho hp hf hok
  | seq _ _ => exact (H n).took _ _ _ ho hp hf hok
  | seqIf _ _ _ => exact (H n).took _ _ _ ho hp hf hok
  | star _ => cases hp
  | tagIf _ _ => exact (H n).took _ _ _ ho hp hf hok
  | rule _ => exact (H n).took _ _ _ ho hp hf hok

theorem eval_stmt_took {sp : StmtP} {g : PR → PBody} (hsp : Starved k sp) : ∀ n r s' o, eval sp g n (.stmt r) s' = .ok o →
    s'.pos ≠ s'.hi → Full s' → o.ok = true → s'.pos < o.s.pos
  | 0, r, s', o, h, _, _, _ => by cases h
  | n + 1, r, s', o, h, h1, h2, h3 => (stmt_takes hsp h).2.2 (.inr h1) h2 h3

/-- With tables that fit the grammar every term settles on every state over the whole list. -/
theorem eval_conv {SPn : Nat → StmtP} {g : PR → PBody} (hS : ∀ r s, Conv (fun n => SPn n r s))
    (hsp : ∀ n, Starved k (SPn n)) (hg : ∀ r, c r = true → (g r).takes k c = true)
    (hd : ∀ r, (g r).descends k c rk (rk r) = true) {top : Nat} (htop : ∀ p : T, p.left k c rk top = true) :
    ∀ m ρ z p s j, p.left k c rk ρ = true → p.starsTake k c = true → s.rem ≤ m → Full s → sizeOf p ≤ z →
    Conv (fun n => eval (SPn (n + j)) g n p s) := by
  have H : ∀ n j, Takes k c (eval (SPn (n + j)) g n) := fun n j => eval_takes hg (hsp (n + j)) n
  intro m
  induction m using Nat.strong_induction_on with
  | _ m ihm =>
  intro ρ
  induction ρ using Nat.strong_induction_on with
  | _ ρ ihρ =>
  intro z
  induction z with
  | zero => intro p s _ _ _ _ _ hz; cases p <;> simp at hz
  | succ z ihz =>
  intro p s j hl hst hm hf hz
  have e : ∀ n, n + 1 + j = n + (j + 1) := by intro n; omega
  have same : ∀ q, sizeOf q ≤ z → q.left k c rk ρ = true → q.starsTake k c = true → ∀ s', PAdv s s' →
      Conv (fun n => eval (SPn (n + (j + 1))) g n q s') :=
    fun q hq h1 h2 s' hs' => ihz q s' (j + 1) h1 h2 (le_trans hs'.rem hm) (hs'.full hf) hq
  have later : ∀ q : T, q.starsTake k c = true → ∀ s', PAdv s s' → s.pos < s'.pos →
      Conv (fun n => eval (SPn (n + (j + 1))) g n q s') := by
    intro q h2 s' hs' ht
    have := hs'.rem_lt hf ht
    exact ihm s'.rem (by omega) top (sizeOf q) q s' (j + 1) (htop q) h2 (le_refl _) (hs'.full hf) (le_refl _)
  have HF : ∀ n, Takes k c (eval (SPn (n + (j + 1))) g n) := fun n => H n (j + 1)
  refine Conv.unshift ?_
  simp only [eval, e]
  cases p with
  | alts tag ps =>
    rw [T.left] at hl
    rw [T.starsTake] at hst
    simp only [T.alts.sizeOf_spec] at hz
    simp only [step]
    refine (alts_conv HF (s := s) ps s (.refl _) (fun q hq s' hs' =>
      same q (by have := sizeOf_mem hq; omega) (mem_leftAll hl q hq) (mem_starsTake hst q hq) s' hs')).bind
      (fun o _ _ => ?_)
    refine .ite (fun _ => ?_) (fun _ => .ok _)
    cases o.tree with
    | none => exact .const (by simp)
    | some t => exact (Conv.up _).bind (fun _ _ _ => .ok _)
  | endStream =>
    simp only [step]
    exact .ite (fun _ => (Conv.up _).bind (fun _ _ _ => .ok _)) (fun _ => .ok _)
  | opt p =>
    rw [T.left] at hl
    rw [T.starsTake] at hst
    simp only [T.opt.sizeOf_spec] at hz
    simp only [step]
    refine (same p (by omega) hl hst s (.refl _)).bind (fun o _ _ => ?_)
    cases o.tree with
    | none => exact .ok _
    | some t => exact (Conv.up _).bind (fun _ _ _ => .ok _)
  | optSeq tag ps =>
    rw [T.left] at hl
    rw [T.starsTake] at hst
    simp only [T.optSeq.sizeOf_spec] at hz
    simp only [step]
    refine (seq_conv HF (s := s) hf (ρ := ρ) (rk := rk) ps s _ (.refl _) hl
      (fun q hq h1 s' hs' => same q (by have := sizeOf_mem hq; omega) h1 (mem_starsTake hst q hq) s' hs')
      (fun q hq s' hs' ht => later q (mem_starsTake hst q hq) s' hs' ht)).bind (fun w _ _ => ?_)
    exact (Conv.up _).bind (fun _ _ _ => .ok _)
  | plus tag p =>
    rw [T.left] at hl
    rw [T.starsTake, Bool.and_eq_true] at hst
    simp only [T.plus.sizeOf_spec] at hz
    simp only [step]
    refine .ite (fun _ => ?_) (fun _ => .ok _)
    refine (same p (by omega) hl hst.2 s (.refl _)).bind (fun o n ho => ?_)
    refine .ite (fun _ => ?_) (fun _ => .ok _)
    have ha := (HF n).adv _ _ _ ho
    have h1 := star_conv HF (s := s) hf (p := p)
      (fun n s' o hs hg' ho hok => moves_took HF (fun n r s' o => eval_stmt_took (hsp _) n r s' o) hst.1 n s' o hg'
        (hs.full hf) ho hok)
      (fun s' hs' => same p (by omega) hl hst.2 s' hs') _ o.s (attachTree (.node tag none none []) o.tree) 0 ha (le_refl _)
    refine Conv.bind (a := fun n => starLoop (eval (SPn (n + (j + 1))) g n) p n _ _) h1 (fun w _ _ => ?_)
    exact (Conv.up _).bind (fun _ _ _ => .ok _)
  | seq tag ps =>
    rw [T.left] at hl
    rw [T.starsTake] at hst
    simp only [T.seq.sizeOf_spec] at hz
    simp only [step]
    refine (seq_conv HF (s := s) hf (ρ := ρ) (rk := rk) ps s _ (.refl _) hl
      (fun q hq h1 s' hs' => same q (by have := sizeOf_mem hq; omega) h1 (mem_starsTake hst q hq) s' hs')
      (fun q hq s' hs' ht => later q (mem_starsTake hst q hq) s' hs' ht)).bind (fun w _ _ => ?_)
    exact seqEnd_conv w
  | seqIf tag p ps =>
    rw [T.left, Bool.and_eq_true, Bool.or_eq_true] at hl
    rw [T.starsTake, Bool.and_eq_true] at hst
    simp only [T.seqIf.sizeOf_spec] at hz
    simp only [step]
    refine (same p (by omega) hl.1 hst.1 s (.refl _)).bind (fun o n ho => ?_)
    refine .ite (fun hok => ?_) (fun _ => .ok _)
    have ha := (HF n).adv _ _ _ ho
    refine Conv.bind ?_ (fun w _ _ => seqEnd_conv w)
    rcases hl.2 with h | h
    · exact seq_conv_later HF _ _ _ ha ((HF n).took _ _ _ ho h hf hok)
        (fun q hq s' hs' ht => later q (mem_starsTake hst.2 q hq) s' hs' ht)
    · exact seq_conv HF (s := s) hf (ρ := ρ) (rk := rk) ps _ _ ha h
        (fun q hq h1 s' hs' => same q (by have := sizeOf_mem hq; omega) h1 (mem_starsTake hst.2 q hq) s' hs')
        (fun q hq s' hs' ht => later q (mem_starsTake hst.2 q hq) s' hs' ht)
  | star p =>
    rw [T.left] at hl
    rw [T.starsTake, Bool.and_eq_true] at hst
    simp only [T.star.sizeOf_spec] at hz
    simp only [step]
    have h1 := star_conv HF (s := s) hf (p := p)
      (fun n s' o hs hg' ho hok => moves_took HF (fun n r s' o => eval_stmt_took (hsp _) n r s' o) hst.1 n s' o hg'
        (hs.full hf) ho hok)
      (fun s' hs' => same p (by omega) hl hst.2 s' hs') _ s (.node Tag.HOIST none none []) 0 (.refl _) (le_refl _)
    refine Conv.bind (a := fun n => starLoop (eval (SPn (n + (j + 1))) g n) p n _ _) h1 (fun w _ _ => ?_)
    exact (Conv.up _).bind (fun _ _ _ => .ok _)
  | stmt r =>
    simp only [step, runStmt]
    refine (Conv.up _).bind (fun st _ _ => ?_)
    refine ((hS r st.strm).shift (j + 1)).bind (fun o _ _ => ?_)
    cases o.1 <;> exact .ok _
  | tagIf tag p =>
    rw [T.left] at hl
    rw [T.starsTake] at hst
    simp only [T.tagIf.sizeOf_spec] at hz
    simp only [step]
    refine (same p (by omega) hl hst s (.refl _)).bind (fun o _ _ => ?_)
    cases o.tree with
    | none => exact .ok _
    | some t => exact (Conv.up _).bind (fun _ _ _ => .ok _)
  | rule r =>
    rw [T.left] at hl
    simp only [step]
    have hb := hd r
    cases hgr : g r with
    | comb p =>
      rw [hgr, PBody.descends, Bool.and_eq_true] at hb
      exact ihρ (rk r) (by simpa using hl) (sizeOf p) p s (j + 1) hb.1 hb.2 hm hf (le_refl _)
    | exec p =>
      rw [hgr, PBody.descends, Bool.and_eq_true] at hb
      simp only [runBody]
      refine (Conv.up _).bind (fun st _ _ => ?_)
      refine .ite (fun _ => .ok _) (fun _ => ?_)
      exact ihρ (rk r) (by simpa using hl) (sizeOf p) p s (j + 1) hb.1 hb.2 hm hf (le_refl _)
    | legacyDo =>
      rw [hgr, PBody.descends, Bool.and_eq_true] at hb
      exact do_conv (S := fun n => SPn (n + (j + 1))) (fun r s => (hS r s).shift _) HF (fun n => hsp _) hf hb.1 hb.2
        (fun s' hs' ht => later _ rfl s' hs' ht)

end conv

end PP
end FLPR
