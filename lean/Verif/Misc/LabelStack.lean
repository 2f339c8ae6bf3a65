import Verif.FileLine.Lemmas
/-!
# `Label_Stack` (src/flpr/Label_Stack.hh): model and properties (C32)
-/

namespace FLPR

/-- Label_Stack.hh:52-59 `Label_Rec_`. -/
structure LabelRec where
  label : Int
  level : Int := -1
  deriving DecidableEq, Repr

/-- The stack, top first. -/
abbrev LabelStack := List LabelRec

namespace LabelStack

/-- Label_Stack.hh:25 `push`. -/
def push (s : LabelStack) (label : Int) : LabelStack := { label := label } :: s

/-- Label_Stack.hh:28 `pop`; `pop_back` on an empty vector is undefined. -/
def pop (s : LabelStack) : Res LabelStack :=
  match s with
  | [] => .error .ub
  | _ :: t => .ok t

/-- Label_Stack.hh:31-33 `is_top`. -/
def isTop (s : LabelStack) (label : Int) : Bool :=
  match s with
  | [] => false
  | r :: _ => r.label == label

/-- Label_Stack.hh:88-91: the run of `count` records at the top gets the levels
`count, count - 1, ..., 1`. -/
def setLevels : Nat → LabelStack → LabelStack
  | 0, s => s
  | _ + 1, [] => []
  | n + 1, r :: s => { r with level := ((n + 1 : Nat) : Int) } :: setLevels n s

/-- Label_Stack.hh:64-96 `level`: the value and the stack afterwards. -/
def level (s : LabelStack) (label : Int) : Res (Int × LabelStack) :=
  match s with
  | [] => .ok (-1, s)
  | r :: t =>
    if r.label ≠ label then .ok (-1, s)
    else if r.level = -1 then
      let count := (s.takeWhile (fun x => x.label == label)).length
      if count > 0 then
        let s' := if count = 1 then { r with level := 0 } :: t else setLevels count s
        match s' with
        | [] => .error .ub
        | r' :: _ => .ok (r'.level, s')
      else .error .assertion
    else .ok (r.level, s)

/-- What the parser does with the stack. -/
inductive Op where
  | push (label : Int)
  | pop
  | level (label : Int)
  deriving DecidableEq

/-- The effect of an operation on the stack. -/
def step (s : LabelStack) : Op → Res LabelStack
  | .push l => .ok (push s l)
  | .pop => pop s
  | .level l => do
    let r ← level s l
    .ok r.2

/-- The effect of a history. -/
def run (s : LabelStack) : List Op → Res LabelStack
  | [] => .ok s
  | op :: ops => do
    let s' ← step s op
    run s' ops

end LabelStack

namespace Spec

/-- Number of records with the label of the top record that are consecutive at the top: how many
pending dos share the label. -/
def sharing : LabelStack → Nat
  | [] => 0
  | r :: s => ((r :: s).takeWhile (fun x => x.label == r.label)).length

/-- What level the top record may show: its number within its run, counted from the outermost, or
zero if it is the only one. -/
def LevelOk : LabelStack → Prop
  | [] => True
  | r :: s => (r.level = -1 ∨ r.level = sharing (r :: s) ∨
      (r.level = 0 ∧ sharing (r :: s) = 1)) ∧ LevelOk s

end Spec
open Spec LabelStack

theorem sharing_pos (r : LabelRec) (s : LabelStack) : 0 < sharing (r :: s) := by
  simp [sharing]

theorem sharing_cons (r q : LabelRec) (s : LabelStack) (h : q.label = r.label) :
    sharing (r :: q :: s) = sharing (q :: s) + 1 := by
  simp [sharing, h]

theorem sharing_congr (r : LabelRec) (n : Int) (s : LabelStack) :
    sharing ({ r with level := n } :: s) = sharing (r :: s) := by
  simp [sharing]

theorem setLevels_labels (n : Nat) (s : LabelStack) :
    (setLevels n s).map (·.label) = s.map (·.label) := by
  induction s generalizing n with
  | nil => cases n <;> rfl
  | cons r s ih => cases n <;> simp [setLevels, ih]

theorem sharing_labels (s t : LabelStack) (h : s.map (·.label) = t.map (·.label)) :
    sharing s = sharing t := by
  cases s with
  | nil => cases t with
    | nil => rfl
    | cons => simp at h
  | cons r s =>
    cases t with
    | nil => simp at h
    | cons q t =>
      have hr : r.label = q.label := by simpa using (List.cons.inj h).1
      unfold sharing
      have key : ∀ (a b : LabelStack), a.map (·.label) = b.map (·.label) →
          (a.takeWhile (fun x => x.label == r.label)).length =
          (b.takeWhile (fun x => x.label == r.label)).length := by
        intro a
        induction a with
        | nil => intro b hb; simp at hb; subst hb; rfl
        | cons x a ih =>
          intro b hb
          cases b with
          | nil => simp at hb
          | cons y b =>
            simp at hb
            rw [List.takeWhile_cons, List.takeWhile_cons, hb.1]
            split
            · simp [ih b hb.2]
            · rfl
      show (List.takeWhile (fun x => x.label == r.label) (r :: s)).length =
        (List.takeWhile (fun x => x.label == q.label) (q :: t)).length
      rw [← hr]; exact key _ _ h

theorem setLevels_ok (n : Nat) (s : LabelStack) (h : LevelOk s)
    (hn : n = sharing s) : LevelOk (setLevels n s) := by
  have gen : ∀ (s : LabelStack) (n : Nat), LevelOk s → (s ≠ [] → n = sharing s) →
      LevelOk (setLevels n s) := by
    intro s
    induction s with
    | nil => intro n _ _; cases n <;> simp [setLevels, LevelOk]
    | cons r s ih =>
      intro n hl hn
      have hn := hn (by simp)
      cases n with
      | zero => exact hl
      | succ n =>
        unfold setLevels LevelOk
        have hsh : sharing ({ r with level := ((n + 1 : Nat) : Int) } :: setLevels n s) =
            sharing (r :: s) := by
          apply sharing_labels
          simp [setLevels_labels]
        refine ⟨Or.inr (Or.inl ?_), ?_⟩
        · rw [hsh, ← hn]
        · cases s with
          | nil => cases n <;> simp [setLevels, LevelOk]
          | cons q s =>
            by_cases hq : q.label = r.label
            · rw [sharing_cons r q s hq] at hn
              exact ih n hl.2 (fun _ => by omega)
            · have : sharing (r :: q :: s) = 1 := by simp [sharing, hq]
              have : n = 0 := by omega
              subst this
              exact hl.2
  exact gen s n h (fun _ => hn)

theorem count_eq_sharing (r : LabelRec) (s : LabelStack) :
    ((r :: s).takeWhile (fun x => x.label == r.label)).length = sharing (r :: s) := rfl

/-- `level` on a stack whose cached levels are right. -/
theorem level_spec (s : LabelStack) (label : Int) (h : LevelOk s) :
    ∃ v s', level s label = .ok (v, s') ∧ LevelOk s' ∧ s'.map (·.label) = s.map (·.label) ∧
      (isTop s label = false → v = -1 ∧ s' = s) ∧
      (isTop s label = true → (v = sharing s ∨ (v = 0 ∧ sharing s = 1)) ∧
        (∀ r t, s = r :: t → r.level = -1 → sharing s = 1 → v = 0)) := by
  unfold level
  cases s with
  | nil => exact ⟨_, _, rfl, trivial, rfl, by simp [isTop], by simp [isTop]⟩
  | cons r t =>
    dsimp only
    split
    · rename_i hne
      exact ⟨_, _, rfl, h, rfl, by simp, by simp [isTop, hne]⟩
    · rename_i heq
      simp only [ne_eq, not_not] at heq
      subst heq
      rw [count_eq_sharing]
      split
      · rename_i hlev
        rw [if_pos (sharing_pos r t)]
        by_cases h1 : sharing (r :: t) = 1
        · simp only [h1, if_true]
          refine ⟨0, _, rfl, ?_, rfl, by simp [isTop], ?_⟩
          · refine ⟨Or.inr (Or.inr ⟨rfl, ?_⟩), h.2⟩
            rw [sharing_congr]; exact h1
          · intro _
            exact ⟨Or.inr ⟨rfl, trivial⟩, fun _ _ _ _ _ => rfl⟩
        · simp only [h1, if_false]
          obtain ⟨n, hn⟩ : ∃ n, sharing (r :: t) = n + 1 :=
            ⟨_, (Nat.succ_pred_eq_of_pos (sharing_pos r t)).symm⟩
          have hok := setLevels_ok _ (r :: t) h rfl
          have hlab := setLevels_labels (sharing (r :: t)) (r :: t)
          rw [hn] at hok hlab ⊢
          refine ⟨((n + 1 : Nat) : Int), _, rfl, hok, hlab, by simp [isTop], ?_⟩
          intro _
          refine ⟨Or.inl rfl, ?_⟩
          intro _ _ _ _ h2
          exact absurd h2 (by simp)
      · rename_i hlev
        refine ⟨r.level, _, rfl, h, rfl, by simp [isTop], ?_⟩
        intro _
        refine ⟨?_, ?_⟩
        · rcases h.1 with h1 | h1 | h1
          · exact absurd h1 hlev
          · exact Or.inl h1
          · exact Or.inr h1
        · intro r' t' e h1
          simp at e
          exact absurd (e.1 ▸ h1) hlev

/-- The cached levels are right in every reachable state. -/
theorem run_levelOk (ops : List Op) (s s' : LabelStack) (h : LevelOk s)
    (hr : run s ops = .ok s') : LevelOk s' := by
  induction ops generalizing s with
  | nil => simp [run] at hr; subst hr; exact h
  | cons op ops ih =>
    unfold run at hr
    rbind hr with s1 h1
    refine ih s1 ?_ hr
    cases op with
    | push l =>
      simp [step] at h1; subst h1
      exact ⟨Or.inl rfl, h⟩
    | pop =>
      unfold step pop at h1
      cases s with
      | nil => simp at h1
      | cons r t => simp at h1; subst h1; exact h.2
    | level l =>
      obtain ⟨v, s2, e, hok, _⟩ := level_spec s l h
      simp [step, e] at h1
      subst h1; exact hok

/-- **C32** (every history) After any history of `push`, `pop` and `level` from an empty stack,
`level(label)` is -1 when the top does not carry the label.  Otherwise it is the number of
consecutive records at the top that share the label, except that it may be 0 when there is only one;
and it is 0 if there is only one and its level was never asked for.  It does not change the labels,
and fails no assertion. -/
theorem C32_level (ops : List Op) (s : LabelStack) (label : Int) (hr : run [] ops = .ok s) :
    ∃ v s', level s label = .ok (v, s') ∧ s'.map (·.label) = s.map (·.label) ∧
      (isTop s label = false → v = -1 ∧ s' = s) ∧
      (isTop s label = true → v = sharing s ∨ (v = 0 ∧ sharing s = 1)) ∧
      (∀ r t, s = r :: t → r.label = label → r.level = -1 → sharing s = 1 → v = 0) := by
  obtain ⟨v, s', h1, h2, h3, h4, h5⟩ := level_spec s label (run_levelOk ops [] s trivial hr)
  refine ⟨v, s', h1, h3, h4, fun h => (h5 h).1, ?_⟩
  intro r t e hl
  have : isTop s label = true := by simp [e, isTop, hl]
  exact (h5 this).2 r t e

/-- Alternate `level` and `pop` `n` times, collecting the levels. -/
def Spec.drain (label : Int) : Nat → LabelStack → Res (List Int × LabelStack)
  | 0, s => .ok ([], s)
  | n + 1, s => do
    let (v, s1) ← level s label
    let s2 ← pop s1
    let (vs, s3) ← drain label n s2
    .ok (v :: vs, s3)

theorem setLevels_replicate (label : Int) (n : Nat) (rest : LabelStack) :
    setLevels n (List.replicate n { label := label } ++ rest) =
      (List.range n).reverse.map (fun i => { label := label, level := ((i + 1 : Nat) : Int) }) ++
        rest := by
  induction n with
  | zero => rfl
  | succ n ih =>
    rw [List.replicate_succ, List.cons_append, setLevels, ih, List.range_succ]
    simp

theorem drain_cached (label : Int) (n : Nat) (rest : LabelStack) :
    drain label n ((List.range n).reverse.map
        (fun i => { label := label, level := ((i + 1 : Nat) : Int) }) ++ rest) =
      .ok ((List.range n).reverse.map (fun i => ((i + 1 : Nat) : Int)), rest) := by
  induction n with
  | zero => rfl
  | succ n ih =>
    rw [List.range_succ]
    simp only [List.reverse_append, List.reverse_cons, List.reverse_nil, List.nil_append,
      List.cons_append, List.map_cons]
    unfold drain
    have hl : level ({ label := label, level := ((n + 1 : Nat) : Int) } ::
        (List.map (fun i => { label := label, level := ((i + 1 : Nat) : Int) })
          (List.range n).reverse ++ rest)) label =
        .ok (((n + 1 : Nat) : Int), { label := label, level := ((n + 1 : Nat) : Int) } ::
        (List.map (fun i => { label := label, level := ((i + 1 : Nat) : Int) })
          (List.range n).reverse ++ rest)) := by
      unfold level
      dsimp only
      rw [if_neg (by simp), if_neg (by omega)]
    rw [hl]
    simp only [Res.ok_bind, pop, ih]

/-- **C32** (closing shared dos) When `n > 1` pending dos share the label (and none of them has been
asked for its level), successive `level`/`pop` pairs give `n, n-1, ..., 1` and leave what was
below. -/
theorem C32_countdown (label : Int) (n : Nat) (hn : 1 < n) (rest : LabelStack)
    (hrest : isTop rest label = false) :
    drain label n (List.replicate n { label := label } ++ rest) =
      .ok ((List.range n).reverse.map (fun i => ((i + 1 : Nat) : Int)), rest) := by
  obtain ⟨m, rfl⟩ : ∃ m, n = m + 1 := ⟨n - 1, by omega⟩
  have hcount : ((List.replicate (m + 1) ({ label := label } : LabelRec) ++ rest).takeWhile
      (fun x => x.label == label)).length = m + 1 := by
    have h0 : rest.takeWhile (fun x => x.label == label) = [] := by
      cases rest with
      | nil => rfl
      | cons r t => simp [isTop] at hrest; simp [hrest]
    rw [List.takeWhile_append]
    simp [h0]
  have hl : level (List.replicate (m + 1) { label := label } ++ rest) label =
      .ok (((m + 1 : Nat) : Int), setLevels (m + 1)
        (List.replicate (m + 1) { label := label } ++ rest)) := by
    unfold level
    rw [List.replicate_succ, List.cons_append]
    dsimp only
    rw [if_neg (by simp), if_pos rfl]
    rw [List.replicate_succ, List.cons_append] at hcount
    rw [hcount, if_pos (by omega), if_neg (by omega)]
    rfl
  have hd : drain label (m + 1) (List.replicate (m + 1) { label := label } ++ rest) =
      drain label (m + 1) (setLevels (m + 1)
        (List.replicate (m + 1) { label := label } ++ rest)) := by
    conv => lhs; unfold drain
    conv => rhs; unfold drain
    rw [hl, setLevels_replicate, List.range_succ]
    simp only [List.reverse_append, List.reverse_cons, List.reverse_nil, List.nil_append,
      List.cons_append, List.map_cons]
    have hl2 : level ({ label := label, level := ((m + 1 : Nat) : Int) } ::
        (List.map (fun i => { label := label, level := ((i + 1 : Nat) : Int) })
          (List.range m).reverse ++ rest)) label =
        .ok (((m + 1 : Nat) : Int), { label := label, level := ((m + 1 : Nat) : Int) } ::
        (List.map (fun i => { label := label, level := ((i + 1 : Nat) : Int) })
          (List.range m).reverse ++ rest)) := by
      unfold level
      dsimp only
      rw [if_neg (by simp), if_neg (by omega)]
    rw [hl2]
  rw [hd, setLevels_replicate, drain_cached]

/-- **C32** (one do) A label carried by one pending do has level 0. -/
theorem C32_single (label : Int) (rest : LabelStack) (hrest : isTop rest label = false) :
    drain label 1 ({ label := label } :: rest) = .ok ([0], rest) := by
  have h0 : rest.takeWhile (fun x => x.label == label) = [] := by
    cases rest with
    | nil => rfl
    | cons r t => simp [isTop] at hrest; simp [hrest]
  unfold drain level
  simp [h0, pop, drain]

example : run [] [.push 10, .push 20, .push 20, .level 20, .pop, .push 20] =
    .ok [{ label := 20 }, { label := 20, level := 1 }, { label := 10 }] := by decide

end FLPR
