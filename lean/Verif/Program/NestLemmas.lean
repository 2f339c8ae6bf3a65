import Verif.Program.NestSpec
import Verif.Program.Inv
import Verif.StmtParser.ParserProps
/-!
# Calls of program level parsers that come to a result, and nests of loops
-/

namespace FLPR
namespace PP
open Spec
open SP (R SNode Rng Strm PRes PFail up up_ok Exts)

/-- The statement parsers with a bound. -/
abbrev SPn (x : Exts) (m : Nat) : StmtP := SP.evalRule SP.R.body x m

/-- With large bounds, the result is `v`. -/
def Ev {α : Type} (F : Nat → Nat → Nat → PRes α) (v : α) : Prop :=
  ∃ N, ∀ m n k, N ≤ m → N ≤ n → N ≤ k → F m n k = .ok v

theorem Ev.ok {α : Type} {F : Nat → Nat → Nat → PRes α} {v : α} (h : ∀ m n k, F m n k = .ok v) : Ev F v :=
  ⟨0, fun m n k _ _ _ => h m n k⟩

theorem Ev.bind {α β : Type} {F : Nat → Nat → Nat → PRes α} {G : Nat → Nat → Nat → α → PRes β} {v : α} {w : β}
    (h1 : Ev F v) (h2 : Ev (fun m n k => G m n k v) w) : Ev (fun m n k => F m n k >>= G m n k) w := by
  obtain ⟨N, h1⟩ := h1
  obtain ⟨M, h2⟩ := h2
  refine ⟨max N M, fun m n k hm hn hk => ?_⟩
  show F m n k >>= G m n k = _
  rw [h1 m n k (by omega) (by omega) (by omega), SP.PRes.ok_bind]
  exact h2 m n k (by omega) (by omega) (by omega)

theorem Ev.congr {α : Type} {F G : Nat → Nat → Nat → PRes α} {v : α} (h : Ev F v) (e : ∀ m n k, F m n k = G m n k) :
    Ev G v := by
  obtain ⟨N, h⟩ := h
  exact ⟨N, fun m n k hm hn hk => by rw [← e]; exact h m n k hm hn hk⟩

section
variable {x : Exts}

/-- The inner parsers. -/
abbrev Fn (x : Exts) (m n : Nat) : T → PState → PRes POut := eval (SPn x m) PR.body n

/-- The parser `p` comes to the result `o`. -/
abbrev E (x : Exts) (p : T) (s : PState) (o : POut) : Prop := Ev (fun m n _ => Fn x m n p s) o
/-- The alternatives come to the result `o`. -/
abbrev EA (x : Exts) (ps : List T) (s : PState) (o : POut) : Prop := Ev (fun m n _ => altsLoop (Fn x m n) ps s) o

theorem E.step {p : T} {s : PState} {o : POut} (h : Ev (fun m n k => step (SPn x m) PR.body (Fn x m n) k p s) o) :
    E x p s o := by
  obtain ⟨N, h⟩ := h
  refine ⟨N + 1, fun m n k hm hn hk => ?_⟩
  obtain ⟨n, rfl⟩ : ∃ j, n = j + 1 := ⟨n - 1, by omega⟩
  exact h m n n (by omega) (by omega) (by omega)

theorem E.returns {r : PR} {s : PState} {o : POut} (h : E x (.rule r) s o) : PReturns x r s (.ok o) := by
  obtain ⟨N, h⟩ := h
  exact ⟨N, fun n hn => h n n n hn hn hn⟩

theorem Ev.sp {r : R} {q : Strm} {w : Option SNode × Strm} (h : Returns x r q (.ok w)) :
    Ev (fun m _ _ => SPn x m r q) w := by
  obtain ⟨N, h⟩ := h
  exact ⟨N, fun m n k hm _ _ => h m hm⟩

theorem Ev.cur {s : PState} {st : LStmt} (h : s.cur = .ok st) : Ev (fun _ _ _ => up s.cur) st :=
  .ok (fun _ _ _ => by rw [h]; rfl)

theorem Ev.up {α : Type} {w : Res α} {v : α} (h : w = .ok v) : Ev (fun _ _ _ => up w) v :=
  .ok (fun _ _ _ => by rw [h]; rfl)

theorem E.stmt_no {r : R} {s : PState} {st : LStmt} (hc : s.cur = .ok st) (h : Not x r st) : E x (.stmt r) s (noMatch s) := by
  refine .step ?_
  show Ev (fun m n k => runStmt (SPn x m) r s) _
  unfold runStmt
  exact (Ev.cur hc).bind ((Ev.sp h).bind (.ok (fun _ _ _ => rfl)))

theorem E.stmt_yes {r : R} {s : PState} {st : LStmt} {u : SNode} (hc : s.cur = .ok st) (h : Is x r st u) :
    E x (.stmt r) s ⟨some (leafOf u.tag s.pos), true, (s.attach u).advance⟩ := by
  obtain ⟨q, h, _⟩ := h
  refine .step ?_
  show Ev (fun m n k => runStmt (SPn x m) r s) _
  unfold runStmt
  exact (Ev.cur hc).bind ((Ev.sp h).bind (.ok (fun _ _ _ => rfl)))

theorem E.seqIf_no {t : Int} {p : T} {ps : List T} {s s' : PState} (h : E x p s (noMatch s')) :
    E x (.seqIf t p ps) s (noMatch s') :=
  .step (Ev.bind h (.ok (fun _ _ _ => rfl)))

theorem E.comb {r : PR} {p : T} {s : PState} {o : POut} (hb : PR.body r = .comb p) (h : E x p s o) : E x (.rule r) s o := by
  refine .step ?_
  refine h.congr (fun m n k => ?_)
  show _ = runBody _ _ _ (PR.body r) s
  rw [hb]; rfl

theorem E.construct_no {r : PR} {t : Int} {a : R} {ps : List T} {s : PState} {st : LStmt}
    (hb : PR.body r = .comb (.seqIf t (.stmt a) ps)) (hc : s.cur = .ok st) (h : Not x a st) : E x (.rule r) s (noMatch s) :=
  .comb hb (.seqIf_no (.stmt_no hc h))

theorem EA.nil {s : PState} : EA x [] s (noMatch s) := .ok (fun _ _ _ => rfl)

theorem EA.no {p : T} {ps : List T} {s s' : PState} {o : POut} (h1 : E x p s (noMatch s')) (h2 : EA x ps s' o) :
    EA x (p :: ps) s o :=
  Ev.bind h1 (h2.congr (fun _ _ _ => rfl))

theorem EA.yes {p : T} {ps : List T} {s : PState} {o : POut} (h1 : E x p s o) (hk : o.ok = true) : EA x (p :: ps) s o :=
  Ev.bind h1 (.ok (fun _ _ _ => by show (if o.ok then _ else _) = _; rw [if_pos hk]))

theorem E.alts_no {t : Int} {ps : List T} {s s' : PState} (h : EA x ps s (noMatch s')) : E x (.alts t ps) s (noMatch s') :=
  .step (Ev.bind h (.ok (fun _ _ _ => rfl)))

/-- A node over one branch. -/
theorem cover_one {t : Int} {d : PNode} (hd : d.tag ≠ Tag.HOIST) {b e : Nat} (hr : d.range = some (b, e)) (hbe : b < e) :
    coverBranches (hoistBack (.node t none none []) d) = .ok (.node t (some (b, e)) none [d]) := by
  obtain ⟨dt, dr, di, dk⟩ := d
  simp only [PNode.tag] at hd
  simp only [PNode.range] at hr
  subst hr
  have : ¬ b = e := by omega
  simp only [hoistBack, if_neg hd, List.nil_append, coverBranches, pushAll, PNode.range, SP.Rng.pushBack, if_neg this]
  rfl

theorem E.alts_yes {t : Int} {ps : List T} {s s' : PState} {d : PNode} (h : EA x ps s ⟨some d, true, s'⟩)
    (hd : d.tag ≠ Tag.HOIST) {b e : Nat} (hr : d.range = some (b, e)) (hbe : b < e) :
    E x (.alts t ps) s ⟨some (.node t (some (b, e)) none [d]), true, s'⟩ := by
  refine .step (Ev.bind h (.ok (fun _ _ _ => ?_)))
  simp only [if_true, cover_one hd hr hbe]
  rfl

/-- `executable_construct` at a statement that does not end the innermost loop. -/
theorem E.exec {s : PState} {st : LStmt} {o : POut} {p : T} {r : PR} (hb : PR.body r = .exec p) (hc : s.cur = .ok st)
    (ht : s.stack.isTop st.label = false) (h : E x p s o) : E x (.rule r) s o := by
  refine .step ?_
  refine Ev.congr (F := fun m n k => up s.cur >>= fun st => if s.stack.isTop st.label then .ok (noMatch s) else Fn x m n p s)
    ((Ev.cur hc).bind (h.congr (fun m n k => ?_))) (fun m n k => ?_)
  · rw [ht]; rfl
  · show _ = runBody _ _ _ (PR.body r) s
    rw [hb]; rfl

theorem E.exec_top {s : PState} {st : LStmt} {p : T} {r : PR} (hb : PR.body r = .exec p) (hc : s.cur = .ok st)
    (ht : s.stack.isTop st.label = true) : E x (.rule r) s (noMatch s) := by
  refine .step ?_
  refine Ev.congr (F := fun m n k => up s.cur >>= fun st => if s.stack.isTop st.label then .ok (noMatch s) else Fn x m n p s)
    ((Ev.cur hc).bind (.ok (fun m n k => ?_))) (fun m n k => ?_)
  · rw [ht]; rfl
  · show _ = runBody _ _ _ (PR.body r) s
    rw [hb]; rfl

/-- What comes behind the executable constructs of `execution_part_construct`. -/
theorem EA.others {s : PState} {st : LStmt} (hc : s.cur = .ok st)
    (h : ∀ r ∈ [R.format_stmt, .data_stmt, .entry_stmt], Not x r st) :
    EA x [.stmt .format_stmt, .stmt .data_stmt, .stmt .entry_stmt] s (noMatch s) :=
  .no (.stmt_no hc (h _ (by simp))) (.no (.stmt_no hc (h _ (by simp))) (.no (.stmt_no hc (h _ (by simp))) .nil))

/-- The statement that ends the innermost loop does not continue its body. -/
theorem E.part_top {s : PState} {st : LStmt} (hc : s.cur = .ok st) (ht : s.stack.isTop st.label = true)
    (h : ∀ r ∈ [R.format_stmt, .data_stmt, .entry_stmt], Not x r st) :
    E x (.rule .execution_part_construct) s (noMatch s) :=
  .comb rfl (.alts_no (.no (.exec_top rfl hc ht) (.others hc h)))

/-- A statement that is not executable does not continue a body. -/
theorem E.part_no {s : PState} {st : LStmt} (hc : s.cur = .ok st) (ht : s.stack.isTop st.label = false)
    (h : NotExec x st) : E x (.rule .execution_part_construct) s (noMatch s) := by
  have H := h.heads
  refine .comb rfl (.alts_no (.no (.exec rfl hc ht (.alts_no ?_)) (.others hc h.others)))
  refine .no (.stmt_no hc (H _ (by simp))) (.no (.construct_no rfl hc (H _ (by simp))) (.no (.construct_no rfl hc (H _ (by simp)))
    (.no (.construct_no rfl hc (H _ (by simp))) (.no ?_ (.no (.construct_no rfl hc (H _ (by simp)))
    (.no (.construct_no rfl hc (H _ (by simp))) (.no (.construct_no rfl hc (H _ (by simp)))
    (.no (.construct_no rfl hc (H _ (by simp))) (.no (.construct_no rfl hc (H _ (by simp))) .nil)))))))))
  refine .step ?_
  refine Ev.congr (F := fun m n k => runDo (SPn x m) (Fn x m n) k s) ?_ (fun _ _ _ => rfl)
  unfold runDo
  exact (Ev.cur hc).bind ((Ev.sp (H .do_stmt (by simp))).bind (.ok (fun _ _ _ => rfl)))

/-- What an executable construct becomes. -/
theorem E.part_yes {s s' : PState} {st : LStmt} {d : PNode} {b e : Nat} (hc : s.cur = .ok st)
    (ht : s.stack.isTop st.label = false) {ps : List T}
    (hb : PR.body .executable_construct = .exec (.alts Tag.PG_EXECUTABLE_CONSTRUCT ps))
    (h : EA x ps s ⟨some d, true, s'⟩) (hd : d.tag ≠ Tag.HOIST) (hr : d.range = some (b, e)) (hbe : b < e) :
    E x (.rule .execution_part_construct) s ⟨some (execOf b e d), true, s'⟩ := by
  refine .comb rfl (.alts_yes (.yes (.exec hb hc ht (.alts_yes h hd hr hbe)) rfl) ?_ ?_ hbe)
  · show Tag.PG_EXECUTABLE_CONSTRUCT ≠ Tag.HOIST
    decide
  · rfl

theorem E.part_action {s : PState} {st : LStmt} {u : SNode} (hc : s.cur = .ok st) (ht : s.stack.isTop st.label = false)
    (h : Is x .action_stmt st u) :
    E x (.rule .execution_part_construct) s ⟨some (execOf s.pos (s.pos + 1) (leafOf u.tag s.pos)), true, (s.attach u).advance⟩ := by
  have ht' : u.tag ≠ Tag.HOIST := by obtain ⟨_, _, h⟩ := h; exact h
  exact .part_yes hc ht rfl (.yes (.stmt_yes hc h) rfl) ht' rfl (by omega)

theorem E.part_do {s s' : PState} {st : LStmt} {l : Int} {u : SNode} {d : PNode} {b e : Nat} (hc : s.cur = .ok st)
    (ht : s.stack.isTop st.label = false) (h : IsDo x st l u)
    (hd : Ev (fun m n k => runDo (SPn x m) (Fn x m n) k s) ⟨some d, true, s'⟩) (hdt : d.tag ≠ Tag.HOIST)
    (hr : d.range = some (b, e)) (hbe : b < e) :
    E x (.rule .execution_part_construct) s ⟨some (execOf b e d), true, s'⟩ := by
  have H := h.before
  refine .part_yes hc ht rfl (.no (.stmt_no hc (H _ (by simp))) (.no (.construct_no rfl hc (H _ (by simp)))
    (.no (.construct_no rfl hc (H _ (by simp))) (.no (.construct_no rfl hc (H _ (by simp))) (.yes ?_ rfl))))) hdt hr hbe
  exact .step (hd.congr (fun _ _ _ => rfl))

/-! ### The trees of a nest -/

theorem Item.flat_pos (t : Item) : 0 < t.flat.length := by
  cases t <;> simp [Item.flat]

theorem Item.tree_range (t : Item) (i : Nat) : (t.tree i).range = some (i, i + t.flat.length) ∧
    (t.tree i).tag ≠ Tag.HOIST := by
  cases t with
  | act st u => exact ⟨by simp [Item.tree, execOf, PNode.range, Item.flat], by simp only [Item.tree, execOf, PNode.tag]; decide⟩
  | loop d du body e eu =>
    refine ⟨?_, by simp only [Item.tree, execOf, PNode.tag]; decide⟩
    simp [Item.tree, execOf, PNode.range, Item.flat]; omega
  | labelled l d du body e eu =>
    refine ⟨?_, by simp only [Item.tree, execOf, PNode.tag]; decide⟩
    simp [Item.tree, execOf, PNode.range, Item.flat]; omega
  | action l d du body e eu =>
    refine ⟨?_, by simp only [Item.tree, execOf, PNode.tag]; decide⟩
    simp [Item.tree, execOf, PNode.range, Item.flat]; omega

theorem push_next {b i j : Nat} (h : b ≤ i) (hj : i < j) : (rangeFrom b i).pushBack (some (i, j)) = .ok (some (b, j)) := by
  have h1 : ¬ i = j := by omega
  have h2 : j ≠ i := by omega
  unfold rangeFrom
  by_cases hb : b = i
  · subst hb; rw [if_pos rfl]; simp [SP.Rng.pushBack, h1]
  · rw [if_neg hb]; simp [SP.Rng.pushBack, h1, h2, hb]

theorem pushAll_trees : ∀ (ts : List Item) (b i : Nat), b ≤ i →
    pushAll (rangeFrom b i) (Item.trees ts i) = .ok (rangeFrom b (i + (Item.flatAll ts).length))
  | [], b, i, h => by simp [Item.trees, Item.flatAll, pushAll]
  | t :: ts, b, i, h => by
    have hp := Item.flat_pos t
    have hr : rangeFrom b (i + t.flat.length) = some (b, i + t.flat.length) := by
      unfold rangeFrom; rw [if_neg (by omega)]
    rw [Item.trees, pushAll, (Item.tree_range t i).1, push_next h (by omega), Res.ok_bind, ← hr,
      pushAll_trees ts b _ (by omega), Item.flatAll, List.length_append, Nat.add_assoc]

theorem pushAll_trees' (ts : List Item) (i : Nat) :
    pushAll none (Item.trees ts i) = .ok (rangeFrom i (i + (Item.flatAll ts).length)) := by
  have := pushAll_trees ts i i (le_refl _)
  rwa [show rangeFrom i i = none by simp [rangeFrom]] at this

/-- The range of a loop. -/
theorem push_loop {i e : Nat} {a : Int} {k z : PNode} (h : i + 1 ≤ e) (hk : k.range = rangeFrom (i + 1) e)
    (hz : z.range = some (e, e + 1)) : pushAll none [leafOf a i, k, z] = .ok (some (i, e + 1)) := by
  have h1 : SP.Rng.pushBack none (some (i, i + 1)) = .ok (some (i, i + 1)) := by simp [SP.Rng.pushBack]
  have h2 : SP.Rng.pushBack (some (i, i + 1)) (rangeFrom (i + 1) e) = .ok (rangeFrom i e) := by
    unfold rangeFrom
    by_cases he : i + 1 = e
    · rw [if_pos he, if_neg (by omega)]; subst he; rfl
    · have a1 : e ≠ i + 1 := by omega
      rw [if_neg he, if_neg (by omega)]; simp [SP.Rng.pushBack, he, a1]
  rw [pushAll, show (leafOf a i).range = some (i, i + 1) from rfl, h1, Res.ok_bind, pushAll, hk, h2, Res.ok_bind, pushAll, hz,
    push_next (by omega) (by omega), Res.ok_bind]
  rfl

theorem hoist_leaf {t : Int} {r : Rng} {i : Option Nat} {ks : List PNode} {d : PNode} (hd : d.tag ≠ Tag.HOIST) :
    hoistBack (.node t r i ks) d = .node t r i (ks ++ [d]) := by
  obtain ⟨dt, dr, di, dk⟩ := d
  simp only [PNode.tag] at hd
  simp only [hoistBack, if_neg hd]

theorem hoist_in {t : Int} {r dr : Rng} {i di : Option Nat} {ks dk : List PNode} :
    hoistBack (.node t r i ks) (.node Tag.HOIST dr di dk) = .node t r i (ks ++ dk) := by
  simp only [hoistBack, if_true]

/-- The tree of a loop with `end do`. -/
theorem doTree_plain {a z : Int} (ha : a ≠ Tag.HOIST) (hz : z ≠ Tag.HOIST) (i : Nat) (ts : List Item) (s : PState) :
    let e := i + 1 + (Item.flatAll ts).length
    doTree a i (.node Tag.PG_BLOCK none none (Item.trees ts (i + 1))) e ⟨Tag.PG_DO_CONSTRUCT, Tag.HOIST, z, s⟩ =
      .ok (.node Tag.PG_DO_CONSTRUCT (some (i, e + 1)) none
        [leafOf a i, .node Tag.PG_BLOCK (rangeFrom (i + 1) e) none (Item.trees ts (i + 1)), leafOf z e]) := by
  intro e
  have hb : coverBranches (.node Tag.PG_BLOCK none none (Item.trees ts (i + 1))) =
      .ok (.node Tag.PG_BLOCK (rangeFrom (i + 1) e) none (Item.trees ts (i + 1))) := by
    rw [coverBranches, pushAll_trees']; rfl
  have hz' : coverBranches (hoistBack (.node Tag.HOIST none none []) (leafOf z e)) =
      .ok (.node Tag.HOIST (some (e, e + 1)) none [leafOf z e]) := cover_one (d := leafOf z e) hz rfl (by omega)
  have hp := push_loop (a := a) (i := i) (e := e) (k := .node Tag.PG_BLOCK (rangeFrom (i + 1) e) none (Item.trees ts (i + 1)))
    (z := leafOf z e) (by omega) rfl rfl
  unfold doTree
  simp only [if_true, PNode.tag, PNode.range, PNode.stmt, PNode.kids]
  rw [hb, Res.ok_bind]
  change (coverBranches (hoistBack (.node Tag.HOIST none none []) (leafOf z e)) >>= _) = _
  rw [hz', Res.ok_bind, show PNode.node a (some (i, i + 1)) (some i) [] = leafOf a i from rfl, hoist_leaf (d := leafOf a i) ha,
    hoist_leaf (by show Tag.PG_BLOCK ≠ Tag.HOIST; decide), hoist_in]
  simp only [List.nil_append, List.cons_append]
  rw [coverBranches, hp, Res.ok_bind, Res.ok_bind, hoist_in, coverBranches, List.nil_append, hp]
  rfl

/-- The tree of a loop that ends with an action statement. -/
theorem doTree_action {a z : Int} (ha : a ≠ Tag.HOIST) (hz : z ≠ Tag.HOIST) (i : Nat) (ts : List Item) (s : PState) :
    let e := i + 1 + (Item.flatAll ts).length
    doTree a i (.node Tag.PG_BLOCK none none (Item.trees ts (i + 1))) e
        ⟨Tag.PG_ACTION_TERM_DO_CONSTRUCT, Tag.PG_DO_TERM_ACTION_STMT, z, s⟩ =
      .ok (.node Tag.PG_NONBLOCK_DO_CONSTRUCT (some (i, e + 1)) none [.node Tag.PG_ACTION_TERM_DO_CONSTRUCT (some (i, e + 1)) none
        [leafOf a i, .node Tag.PG_DO_BODY (rangeFrom (i + 1) e) none (Item.trees ts (i + 1)),
          .node Tag.PG_DO_TERM_ACTION_STMT (some (e, e + 1)) none [leafOf z e]]]) := by
  intro e
  have hb : coverBranches (.node Tag.PG_DO_BODY none none (Item.trees ts (i + 1))) =
      .ok (.node Tag.PG_DO_BODY (rangeFrom (i + 1) e) none (Item.trees ts (i + 1))) := by
    rw [coverBranches, pushAll_trees']; rfl
  have hz' : coverBranches (hoistBack (.node Tag.PG_DO_TERM_ACTION_STMT none none []) (leafOf z e)) =
      .ok (.node Tag.PG_DO_TERM_ACTION_STMT (some (e, e + 1)) none [leafOf z e]) := cover_one (d := leafOf z e) hz rfl (by omega)
  have hp := push_loop (a := a) (i := i) (e := e) (k := .node Tag.PG_DO_BODY (rangeFrom (i + 1) e) none (Item.trees ts (i + 1)))
    (z := .node Tag.PG_DO_TERM_ACTION_STMT (some (e, e + 1)) none [leafOf z e]) (by omega) rfl rfl
  have hne : ¬ Tag.PG_ACTION_TERM_DO_CONSTRUCT = Tag.PG_DO_CONSTRUCT := by decide
  unfold doTree
  simp only [if_neg hne, PNode.range, PNode.stmt, PNode.kids]
  rw [hb, Res.ok_bind]
  change (coverBranches (hoistBack (.node Tag.PG_DO_TERM_ACTION_STMT none none []) (leafOf z e)) >>= _) = _
  rw [hz', Res.ok_bind, show PNode.node a (some (i, i + 1)) (some i) [] = leafOf a i from rfl, hoist_leaf (d := leafOf a i) ha,
    hoist_leaf (by show Tag.PG_DO_BODY ≠ Tag.HOIST; decide), hoist_leaf (by show Tag.PG_DO_TERM_ACTION_STMT ≠ Tag.HOIST; decide)]
  simp only [List.nil_append, List.cons_append]
  rw [coverBranches, hp, Res.ok_bind, Res.ok_bind]
  exact cover_one (by show Tag.PG_ACTION_TERM_DO_CONSTRUCT ≠ Tag.HOIST; decide) rfl (by omega)

/-! ### The stack -/

/-- The label of the innermost loop around that has one. -/
def topOf : LabelStack → Int
  | [] => 0
  | r :: _ => r.label

theorem isTop_no {k : LabelStack} (hk : ∀ r ∈ k, 0 < r.label) {l : Int} (hl : l ≤ 0) : k.isTop l = false := by
  cases k with
  | nil => rfl
  | cons r k =>
    have := hk r (by simp)
    simp only [LabelStack.isTop, beq_eq_false_iff_ne, ne_eq]
    omega

theorem level_single {k : LabelStack} {l : Int} (h : l ≠ topOf k) :
    (k.push l).level l = .ok (0, ⟨l, 0⟩ :: k) := by
  have hk : ∀ hp : 0 < k.length, ¬ k[0].label = l := by
    intro hp
    cases k with
    | nil => simp at hp
    | cons r k =>
      simp only [topOf] at h
      exact fun e => h e.symm
  show LabelStack.level (⟨l, -1⟩ :: k) l = _
  unfold LabelStack.level
  simp [hk]

/-! ### Nests -/

/-- The state behind `k` statements that were given the trees `a`. -/
def PState.past (s : PState) (k : Nat) (a : List (Nat × SNode)) : PState := { s with pos := s.pos + k, attached := a ++ s.attached }

theorem past_zero (s : PState) : s.past 0 [] = s := rfl

theorem past_past (s : PState) (j k : Nat) (a b : List (Nat × SNode)) : (s.past j a).past k b = s.past (j + k) (b ++ a) := by
  simp [PState.past, Nat.add_assoc]

theorem taken_past {s : PState} (h : s.pos < s.hi) (u : SNode) : (s.attach u).advance = s.past 1 [(s.pos, u)] := by
  unfold PState.advance
  rw [if_neg (by show ¬ s.pos = s.hi; omega)]
  rfl

/-- The statements from the current one on. -/
def PState.ahead (s : PState) : List LStmt := s.stmts.drop s.pos

theorem ahead_past (s : PState) (k : Nat) (a : List (Nat × SNode)) : (s.past k a).ahead = s.ahead.drop k := by
  simp [PState.ahead, PState.past, List.drop_drop]

theorem ahead_cur {s : PState} {st : LStmt} {l : List LStmt} (h : s.ahead = st :: l) : s.cur = .ok st ∧ s.pos < s.stmts.length := by
  have h1 : s.stmts[s.pos]? = some st := by
    have := congrArg List.head? h
    simpa [PState.ahead, List.head?_drop] using this
  refine ⟨?_, ?_⟩
  · unfold PState.cur; rw [h1]
  · exact (List.getElem?_eq_some_iff.mp h1).1

/-- The hypotheses on a state. -/
structure Ready (s : PState) : Prop where
  hi : s.hi = s.stmts.length
  stack : ∀ r ∈ s.stack, 0 < r.label

theorem Ready.past {s : PState} (h : Ready s) (k : Nat) (a : List (Nat × SNode)) : Ready (s.past k a) := ⟨h.hi, h.stack⟩

/-- A loop, given its body and its end. -/
theorem Ev.loop {s s1 s2 : PState} {st : LStmt} {l : Int} {u : SNode} {ks : List PNode} {w : DoEnd} {sx : PState}
    {n : PNode} (hc : s.cur = .ok st) (h : IsDo x st l u)
    (h1 : ((if l > 0 then { s with stack := s.stack.push l } else s : PState).attach u).advance = s1)
    (hb : Ev (fun m n k => blockLoop (Fn x m n) k s1 (.node Tag.PG_BLOCK none none [])) (.node Tag.PG_BLOCK none none ks, s2))
    (he : Ev (fun m _ _ => doEnd (SPn x m) s2) (some w, sx))
    (ht : doTree u.tag s.pos (.node Tag.PG_BLOCK none none ks) s2.pos w = .ok n) :
    Ev (fun m n k => runDo (SPn x m) (Fn x m n) k s) ⟨some n, true, w.s⟩ := by
  obtain ⟨q, hq, _⟩ := h.do_
  unfold runDo
  refine (Ev.cur hc).bind ((Ev.sp hq).bind ?_)
  simp only
  refine (Ev.up h.label).bind ?_
  simp only [h1]
  refine hb.bind (he.bind ?_)
  simp only
  exact (Ev.up ht).bind (.ok (fun _ _ _ => rfl))

/-- The end of a loop without label. -/
theorem Ev.endPlain {s : PState} {st : LStmt} {u : SNode} (hc : s.cur = .ok st) (hl : st.label ≤ 0) (h : Is x .end_do_stmt st u) :
    Ev (fun m _ _ => doEnd (SPn x m) s) (some ⟨Tag.PG_DO_CONSTRUCT, Tag.HOIST, u.tag, (s.attach u).advance⟩, s) := by
  obtain ⟨q, hq, _⟩ := h
  unfold doEnd
  refine (Ev.cur hc).bind ?_
  simp only [if_pos hl]
  exact (Ev.sp hq).bind (.ok (fun _ _ _ => rfl))

theorem Ev.endLabelled {s : PState} {st : LStmt} {u : SNode} {l : Int} {k : LabelStack} (hc : s.cur = .ok st) (hl : st.label = l)
    (hp : 0 < l) (hv : s.stack.level l = .ok (0, ⟨l, 0⟩ :: k)) (h : Is x .end_do st u) :
    ∃ sx, Ev (fun m _ _ => doEnd (SPn x m) s)
      (some ⟨Tag.PG_DO_CONSTRUCT, Tag.HOIST, u.tag, { ({ s with stack := ⟨l, 0⟩ :: k } : PState).attach u |>.advance with stack := k }⟩, sx) := by
  obtain ⟨q, hq, _⟩ := h
  refine ⟨{ s with stack := ⟨l, 0⟩ :: k }, ?_⟩
  unfold doEnd
  refine (Ev.cur hc).bind ?_
  simp only [hl, if_neg (Int.not_le.mpr hp)]
  refine (Ev.up hv).bind ?_
  show Ev (fun m _ _ => endSingle (SPn x m) st { s with stack := ⟨l, 0⟩ :: k }) _
  unfold endSingle
  refine (Ev.sp hq).bind ?_
  simp only
  refine (Ev.up (v := k) ?_).bind (.ok (fun _ _ _ => rfl))
  rw [(advance_eq _).2.2.2.2.1]
  rfl

theorem Ev.endAction {s : PState} {st : LStmt} {u : SNode} {l : Int} {k : LabelStack} (hc : s.cur = .ok st) (hl : st.label = l)
    (hp : 0 < l) (hv : s.stack.level l = .ok (0, ⟨l, 0⟩ :: k)) (h0 : Not x .end_do st) (h : Is x .action_stmt st u) :
    ∃ sx, Ev (fun m _ _ => doEnd (SPn x m) s)
      (some ⟨Tag.PG_ACTION_TERM_DO_CONSTRUCT, Tag.PG_DO_TERM_ACTION_STMT, u.tag,
        { ({ s with stack := ⟨l, 0⟩ :: k } : PState).attach u |>.advance with stack := k }⟩, sx) := by
  obtain ⟨q, hq, _⟩ := h
  refine ⟨{ s with stack := ⟨l, 0⟩ :: k }, ?_⟩
  unfold doEnd
  refine (Ev.cur hc).bind ?_
  simp only [hl, if_neg (Int.not_le.mpr hp)]
  refine (Ev.up hv).bind ?_
  show Ev (fun m _ _ => endSingle (SPn x m) st { s with stack := ⟨l, 0⟩ :: k }) _
  unfold endSingle
  refine (Ev.sp h0).bind ?_
  simp only
  refine (Ev.sp hq).bind ?_
  simp only
  refine (Ev.up (v := k) ?_).bind (.ok (fun _ _ _ => rfl))
  rw [(advance_eq _).2.2.2.2.1]
  rfl

/-- One more piece in a body. -/
theorem Ev.blockMore {s s' : PState} {ks : List PNode} {t : PNode} {v : PNode × PState}
    (h1 : E x (.rule .execution_part_construct) s ⟨some t, true, s'⟩) (ht : t.tag ≠ Tag.HOIST)
    (h2 : Ev (fun m n k => blockLoop (Fn x m n) k s' (.node Tag.PG_BLOCK none none (ks ++ [t]))) v) :
    Ev (fun m n k => blockLoop (Fn x m n) k s (.node Tag.PG_BLOCK none none ks)) v := by
  obtain ⟨N, h1⟩ := h1
  obtain ⟨M, h2⟩ := h2
  refine ⟨max N M + 1, fun m n k hm hn hk => ?_⟩
  obtain ⟨k, rfl⟩ : ∃ j, k = j + 1 := ⟨k - 1, by omega⟩
  show blockLoop _ _ _ _ = _
  have e1 : Fn x m n (.rule .execution_part_construct) s = _ := h1 m n k (by omega) (by omega) (by omega)
  rw [blockLoop, e1, SP.PRes.ok_bind]
  simp only
  rw [hoist_leaf ht]
  exact h2 m n k (by omega) (by omega) (by omega)

theorem Ev.blockEnd {s : PState} {a : PNode} (h : E x (.rule .execution_part_construct) s (noMatch s)) :
    Ev (fun m n k => blockLoop (Fn x m n) k s a) (a, s) := by
  obtain ⟨N, h⟩ := h
  refine ⟨N + 1, fun m n k hm hn hk => ?_⟩
  obtain ⟨k, rfl⟩ : ∃ j, k = j + 1 := ⟨k - 1, by omega⟩
  show blockLoop _ _ _ _ = _
  have e1 : Fn x m n (.rule .execution_part_construct) s = _ := h m n k (by omega) (by omega) (by omega)
  rw [blockLoop, e1, SP.PRes.ok_bind]
  rfl

/-- What is ahead behind a body. -/
theorem ahead_body {s : PState} {d e : LStmt} {b rest : List LStmt} (h : s.ahead = (d :: b ++ [e]) ++ rest) (a : List (Nat × SNode))
    (k : LabelStack) :
    (({ s with stack := k } : PState).past 1 a).ahead = b ++ e :: rest := by
  rw [ahead_past]
  show s.ahead.drop 1 = _
  rw [h]; simp

mutual
theorem nest_one : ∀ (t : Item) (s : PState) (rest : List LStmt), Ready s → t.Fits x (topOf s.stack) → s.ahead = t.flat ++ rest →
    E x (.rule .execution_part_construct) s ⟨some (t.tree s.pos), true, s.past t.flat.length (t.given s.pos)⟩
  | .act st u, s, rest, hr, hf, ha => by
    rw [Item.Fits] at hf
    rw [Item.flat] at ha
    obtain ⟨hc, hp⟩ := ahead_cur ha
    have := E.part_action hc (isTop_no hr.stack hf.1) hf.2
    rw [taken_past (by rw [hr.hi]; exact hp)] at this
    simpa [Item.tree, Item.flat, Item.given] using this
  | .loop d du body e eu, s, rest, hr, hf, ha => by
    rw [Item.Fits] at hf
    obtain ⟨f1, f2, f3, f4, f5, f6⟩ := hf
    rw [Item.flat] at ha
    obtain ⟨hc, hp⟩ := ahead_cur (st := d) (l := Item.flatAll body ++ [e] ++ rest) (by rw [ha]; simp)
    have hd : du.tag ≠ Tag.HOIST := by obtain ⟨_, _, h⟩ := f2.do_; exact h
    have hz : eu.tag ≠ Tag.HOIST := by obtain ⟨_, _, h⟩ := f6; exact h
    have ha1 : (s.past 1 [(s.pos, du)]).ahead = Item.flatAll body ++ e :: rest := ahead_body ha _ s.stack
    have hab := nest_all body (s.past 1 [(s.pos, du)]) [] (e :: rest) (hr.past _ _) f3 ha1
    have ha2 : ((s.past 1 [(s.pos, du)]).past (Item.flatAll body).length (Item.givenAll body (s.pos + 1))).ahead = e :: rest := by
      rw [ahead_past, ha1]; simp
    obtain ⟨hc2, hp2⟩ := ahead_cur ha2
    have hstop := E.part_no (x := x) hc2 (isTop_no hr.stack f4) f5
    have hblock := hab hstop
    have hend := Ev.endPlain hc2 f4 f6
    have htree := doTree_plain hd hz s.pos body
      (((s.past 1 [(s.pos, du)]).past (Item.flatAll body).length (Item.givenAll body (s.pos + 1))).attach eu).advance
    have hloop := Ev.loop hc f2 (by rw [if_neg (by decide)]; exact taken_past (by rw [hr.hi]; exact hp) du) hblock hend htree
    have hres := E.part_do hc (isTop_no hr.stack f1) f2 hloop (by show Tag.PG_DO_CONSTRUCT ≠ Tag.HOIST; decide) rfl (by omega)
    rw [taken_past (by show _ < s.hi; rw [hr.hi]; exact hp2), past_past, past_past] at hres
    have e1 : 1 + ((Item.flatAll body).length + 1) = (Item.flat (.loop d du body e eu)).length := by simp [Item.flat]; omega
    rw [e1] at hres
    exact hres
  | .labelled l d du body e eu, s, rest, hr, hf, ha => by
    rw [Item.Fits] at hf
    obtain ⟨g1, g2, f1, f2, f3, f4, f5, f6⟩ := hf
    rw [Item.flat] at ha
    obtain ⟨hc, hp⟩ := ahead_cur (st := d) (l := Item.flatAll body ++ [e] ++ rest) (by rw [ha]; simp)
    have hd : du.tag ≠ Tag.HOIST := by obtain ⟨_, _, h⟩ := f2.do_; exact h
    have hz : eu.tag ≠ Tag.HOIST := by obtain ⟨_, _, h⟩ := f6; exact h
    have hr' : Ready { s with stack := s.stack.push l } := ⟨hr.hi, fun r hm => by
      rcases List.mem_cons.mp hm with rfl | hm
      · exact g1
      · exact hr.stack r hm⟩
    have ha1 : (({ s with stack := s.stack.push l } : PState).past 1 [(s.pos, du)]).ahead = Item.flatAll body ++ e :: rest :=
      ahead_body ha _ _
    have hab := nest_all body (({ s with stack := s.stack.push l } : PState).past 1 [(s.pos, du)]) [] (e :: rest) (hr'.past _ _) f3 ha1
    have ha2 : ((({ s with stack := s.stack.push l } : PState).past 1 [(s.pos, du)]).past (Item.flatAll body).length
        (Item.givenAll body (s.pos + 1))).ahead = e :: rest := by
      rw [ahead_past, ha1]; simp
    obtain ⟨hc2, hp2⟩ := ahead_cur ha2
    have hstop := E.part_top (x := x) hc2 (by simp [PState.past, LabelStack.push, LabelStack.isTop, f4]) f5
    have hblock := hab hstop
    obtain ⟨sx, hend⟩ := Ev.endLabelled hc2 f4 g1 (level_single g2) f6
    have htree := fun z => doTree_plain hd hz s.pos body z
    have hloop := Ev.loop hc f2 (by rw [if_pos g1]; exact taken_past (by show s.pos < s.hi; rw [hr.hi]; exact hp) du) hblock hend (htree _)
    have hres := E.part_do hc (isTop_no hr.stack f1) f2 hloop (by show Tag.PG_DO_CONSTRUCT ≠ Tag.HOIST; decide) rfl (by omega)
    simp only at hres
    rw [taken_past (by show _ < s.hi; rw [hr.hi]; exact hp2)] at hres
    have e1 : s.pos + 1 + (Item.flatAll body).length + 1 = s.pos + (Item.flat (.labelled l d du body e eu)).length := by
      simp [Item.flat]; omega
    have e2 : ({ (({ ((({ s with stack := s.stack.push l } : PState).past 1 [(s.pos, du)]).past (Item.flatAll body).length
        (Item.givenAll body (s.pos + 1))) with stack := ⟨l, 0⟩ :: s.stack } : PState).past 1
          [(s.pos + 1 + (Item.flatAll body).length, eu)]) with stack := s.stack } : PState) =
        s.past (Item.flat (.labelled l d du body e eu)).length (Item.given (.labelled l d du body e eu) s.pos) := by
      simp only [PState.past, e1, Item.given]
      simp
    exact e2 ▸ hres
  | .action l d du body e eu, s, rest, hr, hf, ha => by
    rw [Item.Fits] at hf
    obtain ⟨g1, g2, f1, f2, f3, f4, f5, f50, f6⟩ := hf
    rw [Item.flat] at ha
    obtain ⟨hc, hp⟩ := ahead_cur (st := d) (l := Item.flatAll body ++ [e] ++ rest) (by rw [ha]; simp)
    have hd : du.tag ≠ Tag.HOIST := by obtain ⟨_, _, h⟩ := f2.do_; exact h
    have hz : eu.tag ≠ Tag.HOIST := by obtain ⟨_, _, h⟩ := f6; exact h
    have hr' : Ready { s with stack := s.stack.push l } := ⟨hr.hi, fun r hm => by
      rcases List.mem_cons.mp hm with rfl | hm
      · exact g1
      · exact hr.stack r hm⟩
    have ha1 : (({ s with stack := s.stack.push l } : PState).past 1 [(s.pos, du)]).ahead = Item.flatAll body ++ e :: rest :=
      ahead_body ha _ _
    have hab := nest_all body (({ s with stack := s.stack.push l } : PState).past 1 [(s.pos, du)]) [] (e :: rest) (hr'.past _ _) f3 ha1
    have ha2 : ((({ s with stack := s.stack.push l } : PState).past 1 [(s.pos, du)]).past (Item.flatAll body).length
        (Item.givenAll body (s.pos + 1))).ahead = e :: rest := by
      rw [ahead_past, ha1]; simp
    obtain ⟨hc2, hp2⟩ := ahead_cur ha2
    have hstop := E.part_top (x := x) hc2 (by simp [PState.past, LabelStack.push, LabelStack.isTop, f4]) f5
    have hblock := hab hstop
    obtain ⟨sx, hend⟩ := Ev.endAction hc2 f4 g1 (level_single g2) f50 f6
    have htree := fun z => doTree_action hd hz s.pos body z
    have hloop := Ev.loop hc f2 (by rw [if_pos g1]; exact taken_past (by show s.pos < s.hi; rw [hr.hi]; exact hp) du) hblock hend (htree _)
    have hres := E.part_do hc (isTop_no hr.stack f1) f2 hloop (by show Tag.PG_NONBLOCK_DO_CONSTRUCT ≠ Tag.HOIST; decide) rfl (by omega)
    simp only at hres
    rw [taken_past (by show _ < s.hi; rw [hr.hi]; exact hp2)] at hres
    have e1 : s.pos + 1 + (Item.flatAll body).length + 1 = s.pos + (Item.flat (.action l d du body e eu)).length := by
      simp [Item.flat]; omega
    have e2 : ({ (({ ((({ s with stack := s.stack.push l } : PState).past 1 [(s.pos, du)]).past (Item.flatAll body).length
        (Item.givenAll body (s.pos + 1))) with stack := ⟨l, 0⟩ :: s.stack } : PState).past 1
          [(s.pos + 1 + (Item.flatAll body).length, eu)]) with stack := s.stack } : PState) =
        s.past (Item.flat (.action l d du body e eu)).length (Item.given (.action l d du body e eu) s.pos) := by
      simp only [PState.past, e1, Item.given]
      simp
    exact e2 ▸ hres
theorem nest_all : ∀ (ts : List Item) (s : PState) (ks : List PNode) (rest : List LStmt), Ready s →
    Item.FitAll x ts (topOf s.stack) → s.ahead = Item.flatAll ts ++ rest →
    E x (.rule .execution_part_construct) (s.past (Item.flatAll ts).length (Item.givenAll ts s.pos))
      (noMatch (s.past (Item.flatAll ts).length (Item.givenAll ts s.pos))) →
    Ev (fun m n k => blockLoop (Fn x m n) k s (.node Tag.PG_BLOCK none none ks))
      (.node Tag.PG_BLOCK none none (ks ++ Item.trees ts s.pos), s.past (Item.flatAll ts).length (Item.givenAll ts s.pos))
  | [], s, ks, rest, hr, hf, ha, hn => by
    have := Ev.blockEnd (a := .node Tag.PG_BLOCK none none ks) hn
    simpa [Item.trees, Item.flatAll, Item.givenAll, past_zero] using this
  | t :: ts, s, ks, rest, hr, hf, ha, hn => by
    rw [Item.FitAll] at hf
    rw [Item.flatAll, List.append_assoc] at ha
    have h1 := nest_one t s _ hr hf.1 ha
    have e1 : (Item.flatAll (t :: ts)).length = t.flat.length + (Item.flatAll ts).length := by simp [Item.flatAll]
    have e2 : s.past (Item.flatAll (t :: ts)).length (Item.givenAll (t :: ts) s.pos) =
        (s.past t.flat.length (t.given s.pos)).past (Item.flatAll ts).length (Item.givenAll ts (s.pos + t.flat.length)) := by
      rw [past_past, e1, Item.givenAll]
    rw [e2] at hn ⊢
    have h2 := nest_all ts (s.past t.flat.length (t.given s.pos)) (ks ++ [t.tree s.pos]) rest (hr.past _ _) hf.2
      (by rw [ahead_past, ha]; simp) hn
    have := Ev.blockMore h1 (Item.tree_range t s.pos).2 h2
    rw [Item.trees]
    rw [List.append_assoc] at this
    exact this
end

end
end PP
end FLPR
