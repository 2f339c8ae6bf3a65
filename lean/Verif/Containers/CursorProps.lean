import Verif.Containers.CursorLemmas
import Verif.Containers.TreeProps
/-!
# C31: tree cursors

On every tree with right links (C30: every tree a program can build), the cursor moves are the
moves on paths of the plain tree, and inverse to each other.
-/

namespace FLPR
namespace Tr

variable {α : Type}

open FLPR.Tr.Spec (Rose)

/-- A path is empty or ends in a step. -/
theorem at_cases {r x : Rose α} {p : List Nat} (h : r.at p = some x) :
    (p = [] ∧ x = r) ∨ ∃ q i y, p = q ++ [i] ∧ r.at q = some y ∧ y.kids[i]? = some x := by
  rcases List.eq_nil_or_concat p with rfl | ⟨q, i, rfl⟩
  · left
    simp only [Rose.at, Option.some.injEq] at h
    exact ⟨rfl, h.symm⟩
  · right
    rw [List.concat_eq_append] at h ⊢
    rw [at_append] at h
    simp only [Option.bind_eq_some_iff] at h
    obtain ⟨y, hy, hx⟩ := h
    refine ⟨q, i, y, rfl, hy, ?_⟩
    simp only [Rose.at] at hx
    cases hk : y.kids[i]? with
    | none => rw [hk] at hx; exact absurd hx (by simp)
    | some k => rw [hk] at hx; simpa using hx

theorem node_at {r x : Rose α} {p : List Nat} (nd : r.handles.Nodup) (h : r.at p = some x) :
    Cursor.node (embedRoot r) (some (.node x.handle)) = .ok (embed (above r.handle p r) x) := by
  simp only [Cursor.node, deref, embedRoot, find_at p r.handle r x nd h]

theorem deref_at {r x : Rose α} {p : List Nat} (nd : r.handles.Nodup) (h : r.at p = some x) :
    deref (embedRoot r) (.node x.handle) = .ok (embed (above r.handle p r) x) := by
  simp only [deref, embedRoot, find_at p r.handle r x nd h]

theorem isRoot_root {r : Rose α} (nd : r.handles.Nodup) :
    Cursor.isRoot (embedRoot r) (some (.node r.handle)) = .ok true := by
  have h : r.at [] = some r := rfl
  simp only [Cursor.isRoot, node_at nd h, Res.ok_bind, embed_linked, embed_parent, embed_self,
    above]
  simp

theorem isRoot_step {r x y : Rose α} {q : List Nat} {i : Nat} (nd : r.handles.Nodup)
    (hy : r.at q = some y) (hx : y.kids[i]? = some x) :
    Cursor.isRoot (embedRoot r) (some (.node x.handle)) = .ok false := by
  have h : r.at (q ++ [i]) = some x := by rw [at_snoc hy, hx]
  have hne := kid_handle_ne (at_nodup q nd hy) hx (handle_mem x)
  simp only [Cursor.isRoot, node_at nd h, Res.ok_bind, embed_linked, embed_parent, embed_self,
    above_snoc q i r.handle r y x hy hx]
  simp [hne]

theorem firstOf_embed (q : Nat) (x : Rose α) :
    firstOf (embed q x) = .ok (match x.kids with
      | [] => .endOf x.handle
      | k :: _ => .node k.handle) := by
  simp only [firstOf, embed_value, embed_kids, embed_addr]
  cases x.kids with
  | nil => rfl
  | cons k ks => simp only [List.map_cons, embed_addr]

theorem endPos_embed (q : Nat) (x : Rose α) : endPos (embed q x) = .ok (.endOf x.handle) := by
  simp only [endPos, embed_value, embed_addr]

theorem isLeaf_embed (q : Nat) (x : Rose α) : (embed q x).isLeaf = .ok x.kids.isEmpty := by
  simp only [TNode.isLeaf, embed_value, embed_kids]
  cases x.kids <;> rfl

theorem handle_inj {ks : List (Rose α)} (nd : (Rose.handlesAll ks).Nodup) {i j : Nat}
    {a b : Rose α} (ha : ks[i]? = some a) (hb : ks[j]? = some b) (h : a.handle = b.handle) :
    i = j := by
  induction ks generalizing i j with
  | nil => simp at ha
  | cons k ks ih =>
    simp only [Rose.handlesAll, List.nodup_append] at nd
    cases i with
    | zero =>
      cases j with
      | zero => rfl
      | succ j =>
        simp only [List.getElem?_cons_zero, Option.some.injEq] at ha
        simp only [List.getElem?_cons_succ] at hb
        subst ha
        exact absurd h (nd.2.2 _ (handle_mem k) _
          (mem_handlesAll (List.mem_of_getElem? hb) (handle_mem b)))
    | succ i =>
      cases j with
      | zero =>
        simp only [List.getElem?_cons_zero, Option.some.injEq] at hb
        simp only [List.getElem?_cons_succ] at ha
        subst hb
        exact absurd h.symm (nd.2.2 _ (handle_mem k) _
          (mem_handlesAll (List.mem_of_getElem? ha) (handle_mem a)))
      | succ j =>
        simp only [List.getElem?_cons_succ] at ha hb
        rw [ih nd.2.1 ha hb]

theorem stepNext_at {r x y : Rose α} {q : List Nat} {i : Nat} (nd : r.handles.Nodup)
    (hy : r.at q = some y) (hx : y.kids[i]? = some x) :
    stepNext (embedRoot r) x.handle = .ok (match y.kids[i + 1]? with
      | none => .endOf y.handle
      | some z => .node z.handle) := by
  simp only [stepNext, embedRoot, holder_at q i r.handle r y x nd hy hx]
  cases hz : y.kids[i + 1]? with
  | none =>
    rw [List.drop_eq_nil_of_le (List.getElem?_eq_none_iff.mp hz)]
    rfl
  | some z =>
    obtain ⟨hl, hz'⟩ := List.getElem?_eq_some_iff.mp hz
    rw [List.drop_eq_getElem_cons hl, hz']
    rfl

theorem stepPrev_at {r x y z : Rose α} {q : List Nat} {i : Nat} (nd : r.handles.Nodup)
    (hy : r.at q = some y) (hx : y.kids[i + 1]? = some x) (hz : y.kids[i]? = some z) :
    stepPrev (embedRoot r) x.handle = .ok (.node z.handle) := by
  simp only [stepPrev, embedRoot, holder_at q (i + 1) r.handle r y x nd hy hx]
  obtain ⟨hl, hz'⟩ := List.getElem?_eq_some_iff.mp hz
  rw [List.take_add_one, hz]
  simp

/-- The questions are answered right. -/
theorem has_at {r x : Rose α} {p : List Nat} (nd : r.handles.Nodup) (h : r.at p = some x)
    (m : Spec.Move) :
    Cursor.has (embedRoot r) m (some (.node x.handle)) = .ok (Spec.move r m p).isSome := by
  have hdown : Cursor.hasDown (embedRoot r) (some (.node x.handle))
      = .ok (Spec.move r .down p).isSome := by
    simp only [Cursor.hasDown, node_at nd h, Res.ok_bind, isLeaf_embed, Spec.move]
    rw [at_snoc h]
    cases hk : x.kids with
    | nil => simp
    | cons k ks => simp
  rcases at_cases h with ⟨rfl, rfl⟩ | ⟨q, i, y, rfl, hy, hx⟩
  · cases m with
    | up => simp only [Cursor.has, Cursor.hasUp, isRoot_root nd, Res.ok_bind, Spec.move]; rfl
    | down => exact hdown
    | next =>
      simp only [Cursor.has, Cursor.hasNext, isRoot_root nd, Res.ok_bind, Spec.move, if_true]
      rfl
    | prev =>
      simp only [Cursor.has, Cursor.hasPrev, isRoot_root nd, Res.ok_bind, Spec.move, if_true]
      rfl
  · have hpar : (embed (above r.handle (q ++ [i]) r) x).parent = y.handle := by
      rw [embed_parent, above_snoc q i r.handle r y x hy hx]
    cases m with
    | up =>
      simp only [Cursor.has, Cursor.hasUp, isRoot_step nd hy hx, Res.ok_bind, Spec.move]
      simp
    | down => exact hdown
    | next =>
      simp only [Cursor.has, Cursor.hasNext, isRoot_step nd hy hx, Res.ok_bind, node_at nd h, hpar,
        deref_at nd hy, endPos_embed, stepNext_at nd hy hx, Bool.false_eq_true, if_false]
      simp only [Spec.move, List.getLast?_append, List.getLast?_singleton, Option.some_or,
        List.dropLast_concat, at_snoc hy]
      cases y.kids[i + 1]? with
      | none => simp
      | some z => simp
    | prev =>
      simp only [Cursor.has, Cursor.hasPrev, isRoot_step nd hy hx, Res.ok_bind, node_at nd h, hpar,
        deref_at nd hy, firstOf_embed, Bool.false_eq_true, if_false]
      simp only [Spec.move, List.getLast?_append, List.getLast?_singleton, Option.some_or,
        List.dropLast_concat]
      have ndy := kids_nodup (at_nodup q nd hy)
      cases hks : y.kids with
      | nil => rw [hks] at hx; simp at hx
      | cons k ks =>
        have hk0 : y.kids[0]? = some k := by rw [hks]; rfl
        dsimp only
        cases i with
        | zero =>
          rw [hk0] at hx
          cases hx
          simp
        | succ i =>
          have : k.handle ≠ x.handle := fun e => absurd (handle_inj ndy hk0 hx e) (by simp)
          simp [this]

/-- One round of a move, by name. -/
def Cursor.move1 (t : TNode α) : Spec.Move → Cursor → Res Cursor
  | .up => Cursor.up1 t
  | .down => Cursor.down1 t
  | .next => Cursor.next1 t
  | .prev => Cursor.prev1 t

theorem move1_refused {r x : Rose α} {p : List Nat} (nd : r.handles.Nodup) (h : r.at p = some x)
    (m : Spec.Move) (hm : Spec.move r m p = none) :
    Cursor.move1 (embedRoot r) m (some (.node x.handle)) = .error .assertion := by
  have hh := has_at nd h m
  rw [hm] at hh
  cases m with
  | up =>
    have h1 : Cursor.hasUp (embedRoot r) (some (.node x.handle)) = .ok false := hh
    simp only [Cursor.move1, Cursor.up1, h1, Res.ok_bind, if_true]
  | down =>
    have h1 : Cursor.hasDown (embedRoot r) (some (.node x.handle)) = .ok false := hh
    simp only [Cursor.move1, Cursor.down1, h1, Res.ok_bind, if_true]
  | next =>
    have h1 : Cursor.hasNext (embedRoot r) (some (.node x.handle)) = .ok false := hh
    simp only [Cursor.move1, Cursor.next1, h1, Res.ok_bind, if_true]
  | prev =>
    have h1 : Cursor.hasPrev (embedRoot r) (some (.node x.handle)) = .ok false := hh
    simp only [Cursor.move1, Cursor.prev1, h1, Res.ok_bind, if_true]

theorem toFirst_done {r x : Rose α} {p p' : List Nat} (nd : r.handles.Nodup) (h : r.at p = some x)
    (hm : Spec.move r .down p = some p') :
    ∃ z, r.at p' = some z ∧
      Cursor.toFirst (embedRoot r) (some (.node x.handle)) = .ok (some (.node z.handle)) := by
  simp only [Spec.move, at_snoc h] at hm
  cases hk : x.kids with
  | nil => simp [hk] at hm
  | cons k ks =>
    simp only [hk, List.getElem?_cons_zero, Option.isSome_some, if_true, Option.some.injEq] at hm
    subst hm
    refine ⟨k, by rw [at_snoc h, hk]; rfl, ?_⟩
    simp only [Cursor.toFirst, node_at nd h, Res.ok_bind, firstOf_embed, hk]

theorem bump_done {r x : Rose α} {p p' : List Nat} (nd : r.handles.Nodup) (h : r.at p = some x)
    (hm : Spec.move r .next p = some p') :
    ∃ z, r.at p' = some z ∧
      Cursor.bump (embedRoot r) (some (.node x.handle)) = .ok (some (.node z.handle)) := by
  rcases at_cases h with ⟨rfl, rfl⟩ | ⟨q, i, y, rfl, hy, hx⟩
  · simp [Spec.move] at hm
  · simp only [Spec.move, List.getLast?_append, List.getLast?_singleton, Option.some_or,
      List.dropLast_concat, at_snoc hy] at hm
    cases hz : y.kids[i + 1]? with
    | none => simp [hz] at hm
    | some z =>
      simp only [hz, Option.isSome_some, if_true, Option.some.injEq] at hm
      subst hm
      refine ⟨z, by rw [at_snoc hy, hz], ?_⟩
      simp only [Cursor.bump, stepNext_at nd hy hx, hz, Res.ok_bind]

theorem move1_done {r x : Rose α} {p p' : List Nat} (nd : r.handles.Nodup) (h : r.at p = some x)
    (m : Spec.Move) (hm : Spec.move r m p = some p') :
    ∃ z, r.at p' = some z ∧
      Cursor.move1 (embedRoot r) m (some (.node x.handle)) = .ok (some (.node z.handle)) := by
  have hh := has_at nd h m
  rw [hm] at hh
  cases m with
  | up =>
    have h1 : Cursor.hasUp (embedRoot r) (some (.node x.handle)) = .ok true := hh
    rcases at_cases h with ⟨rfl, rfl⟩ | ⟨q, i, y, rfl, hy, hx⟩
    · simp [Spec.move] at hm
    · simp only [Spec.move, List.append_eq_nil_iff, List.cons_ne_self, and_false, if_false,
        List.dropLast_concat, Option.some.injEq] at hm
      subst hm
      refine ⟨y, hy, ?_⟩
      have hpar : (embed (above r.handle (q ++ [i]) r) x).parent = y.handle := by
        rw [embed_parent, above_snoc q i r.handle r y x hy hx]
      simp only [Cursor.move1, Cursor.up1, h1, Res.ok_bind, node_at nd h, hpar, deref_at nd hy,
        embed_linked, embed_self]
      simp
  | down =>
    have h1 : Cursor.hasDown (embedRoot r) (some (.node x.handle)) = .ok true := hh
    obtain ⟨z, hz, hd⟩ := toFirst_done nd h hm
    exact ⟨z, hz, by simp only [Cursor.move1, Cursor.down1, h1, Res.ok_bind, hd]; simp⟩
  | next =>
    have h1 : Cursor.hasNext (embedRoot r) (some (.node x.handle)) = .ok true := hh
    obtain ⟨z, hz, hd⟩ := bump_done nd h hm
    exact ⟨z, hz, by simp only [Cursor.move1, Cursor.next1, h1, Res.ok_bind, hd]; simp⟩
  | prev =>
    have h1 : Cursor.hasPrev (embedRoot r) (some (.node x.handle)) = .ok true := hh
    rcases at_cases h with ⟨rfl, rfl⟩ | ⟨q, i, y, rfl, hy, hx⟩
    · simp [Spec.move] at hm
    · cases i with
      | zero => simp [Spec.move] at hm
      | succ i =>
        simp only [Spec.move, List.getLast?_append, List.getLast?_singleton, Option.some_or,
          List.dropLast_concat, Option.some.injEq] at hm
        subst hm
        have hl := (List.getElem?_eq_some_iff.mp hx).1
        have hz : y.kids[i]? = some (y.kids[i]) := List.getElem?_eq_getElem (by omega)
        refine ⟨_, by rw [at_snoc hy, hz], ?_⟩
        simp only [Cursor.move1, Cursor.prev1, h1, Res.ok_bind, stepPrev_at nd hy hx hz]
        simp

theorem move_eq (t : TNode α) (m : Spec.Move) (n : Nat) (c : Cursor) :
    Cursor.move t m n c = times (Cursor.move1 t m) n c := by
  cases m <;> rfl

theorem moves_at {r : Rose α} (nd : r.handles.Nodup) (m : Spec.Move) : ∀ (n : Nat)
    (p : List Nat) (x : Rose α), r.at p = some x →
    (∀ p', Spec.moves r m n p = some p' → ∃ z, r.at p' = some z ∧
      times (Cursor.move1 (embedRoot r) m) n (some (.node x.handle))
        = .ok (some (.node z.handle))) ∧
    (Spec.moves r m n p = none →
      times (Cursor.move1 (embedRoot r) m) n (some (.node x.handle)) = .error .assertion)
  | 0, p, x, h => by
    simp only [Spec.moves, times]
    refine ⟨?_, by simp⟩
    rintro p' ⟨⟩
    exact ⟨x, h, rfl⟩
  | n + 1, p, x, h => by
    simp only [Spec.moves, times]
    cases hm : Spec.move r m p with
    | none =>
      rw [move1_refused nd h m hm]
      exact ⟨by simp, fun _ => rfl⟩
    | some p1 =>
      obtain ⟨z, hz, hd⟩ := move1_done nd h m hm
      rw [hd]
      simp only [Res.ok_bind, Option.bind_some]
      exact moves_at nd m n p1 z hz

/-! ## The theorems -/

/-- **C31.**  Every tree that a history of operations builds is well linked. -/
theorem C31_wellLinked (hoist : α → Bool) (cs : List (Cmd α)) (w : World α)
    (h : World.start.run hoist cs = .ok w) (i : Nat) (t : TNode α)
    (ht : w.trees[i]? = some (some t)) : WellLinked t := by
  obtain ⟨h1, h2⟩ := run_sim hoist cs World.start Spec.World.start inv_start
  cases hv : Spec.World.run hoist Spec.World.start cs with
  | none =>
    obtain ⟨e, he⟩ := h2 hv
    rw [he] at h
    exact absurd h (by simp)
  | some v =>
    obtain ⟨w', hw', inv⟩ := h1 v hv
    rw [hw'] at h
    cases h
    rw [inv.trees, List.getElem?_map] at ht
    cases hx : v.trees[i]? with
    | none => rw [hx] at ht; exact absurd ht (by simp)
    | some o =>
      cases o with
      | none => rw [hx] at ht; exact absurd ht (by simp)
      | some r =>
        rw [hx] at ht
        simp only [Option.map_some, Option.some.injEq] at ht
        subst ht
        exact wellLinked_embed (inv.good.live_nodup (i := i) (by simp [Spec.World.live, hx]))

theorem WellLinked.rose {t : TNode α} (h : WellLinked t) {r : Rose α} (hs : Shape t r) :
    t = embedRoot r ∧ r.handles.Nodup := by
  obtain ⟨r', rfl, nd⟩ := h.embed
  have : r' = r := shape_unique r'.handle r' r hs
  subst this
  exact ⟨rfl, nd⟩

/-- **C31.**  On a well linked tree with the shape `r`, a cursor at path `p` answers each `has_`
question by whether the path has such a neighbour; each move with any count goes where the moves on
paths go, and fails an assertion when these have nowhere to go. -/
theorem C31_moves {t : TNode α} (h : WellLinked t) {r : Rose α} (hs : Shape t r)
    {p : List Nat} {c : Cursor} (hc : At r p c) (m : Spec.Move) (n : Nat) :
    Cursor.has t m c = .ok (Spec.move r m p).isSome ∧
    (∀ p', Spec.moves r m n p = some p' → ∃ c', Cursor.move t m n c = .ok c' ∧ At r p' c') ∧
    (Spec.moves r m n p = none → Cursor.move t m n c = .error .assertion) := by
  obtain ⟨rfl, nd⟩ := h.rose hs
  obtain ⟨x, hx, rfl⟩ := hc
  obtain ⟨h1, h2⟩ := moves_at nd m n p x hx
  rw [move_eq]
  refine ⟨has_at nd hx m, ?_, h2⟩
  intro p' hp'
  obtain ⟨z, hz, ht⟩ := h1 p' hp'
  exact ⟨_, ht, z, hz, rfl⟩

/-- Every cursor on a tree is at a path. -/
theorem on_at {r : Rose α} {c : Cursor} (hc : On (embedRoot r) c) : ∃ p, At r p c := by
  obtain ⟨n, hn, rfl⟩ := hc
  rw [embedRoot, addrs_embed] at hn
  obtain ⟨p, x, hx, rfl⟩ := exists_path hn
  exact ⟨p, x, hx, rfl⟩

theorem at_on {r : Rose α} {p : List Nat} {c : Cursor} (hc : At r p c) : On (embedRoot r) c := by
  obtain ⟨x, hx, rfl⟩ := hc
  exact ⟨x.handle, by
    rw [embedRoot, addrs_embed]; exact at_mem p hx _ (handle_mem x), rfl⟩

/-- The opposite move. -/
def Spec.Move.inverse : Spec.Move → Option Spec.Move
  | .down => some .up
  | .next => some .prev
  | .prev => some .next
  | .up => none

theorem move_inverse {r x : Rose α} {m m' : Spec.Move} (hm : m.inverse = some m') {p p' : List Nat}
    (hx : r.at p = some x) (h : Spec.move r m p = some p') : Spec.move r m' p' = some p := by
  cases m with
  | up => exact absurd hm (by simp [Spec.Move.inverse])
  | down =>
    simp only [Spec.Move.inverse, Option.some.injEq] at hm
    subst hm
    simp only [Spec.move] at h
    split at h
    · cases h; simp [Spec.move]
    · exact absurd h (by simp)
  | next =>
    simp only [Spec.Move.inverse, Option.some.injEq] at hm
    subst hm
    rcases at_cases hx with ⟨rfl, rfl⟩ | ⟨q, i, y, rfl, hy, hx'⟩
    · simp [Spec.move] at h
    · simp only [Spec.move, List.getLast?_append, List.getLast?_singleton, Option.some_or,
        List.dropLast_concat] at h
      split at h
      · cases h; simp [Spec.move]
      · exact absurd h (by simp)
  | prev =>
    simp only [Spec.Move.inverse, Option.some.injEq] at hm
    subst hm
    rcases at_cases hx with ⟨rfl, rfl⟩ | ⟨q, i, y, rfl, hy, hx'⟩
    · simp [Spec.move] at h
    · cases i with
      | zero => simp [Spec.move] at h
      | succ i =>
        simp only [Spec.move, List.getLast?_append, List.getLast?_singleton, Option.some_or,
          List.dropLast_concat, Option.some.injEq] at h
        subst h
        simp [Spec.move, hx]

theorem moves_snoc (r : Rose α) (m : Spec.Move) : ∀ (n : Nat) (p : List Nat),
    Spec.moves r m (n + 1) p = (Spec.moves r m n p).bind (Spec.move r m)
  | 0, p => by simp [Spec.moves]
  | n + 1, p => by
    rw [Spec.moves]
    cases hp : Spec.move r m p with
    | none => simp [Spec.moves, hp]
    | some p1 =>
      simp only [Option.bind_some, Spec.moves, hp]
      exact moves_snoc r m n p1

theorem moves_inverse {r : Rose α} (nd : r.handles.Nodup) {m m' : Spec.Move}
    (hm : m.inverse = some m') : ∀ (n : Nat) (p p' : List Nat) (x : Rose α), r.at p = some x →
    Spec.moves r m n p = some p' → Spec.moves r m' n p' = some p
  | 0, p, p', x, hx, h => by
    simp only [Spec.moves, Option.some.injEq] at h ⊢
    exact h.symm
  | n + 1, p, p', x, hx, h => by
    rw [Spec.moves, Option.bind_eq_some_iff] at h
    obtain ⟨p1, h1, h2⟩ := h
    obtain ⟨z, hz, -⟩ := move1_done nd hx m h1
    rw [moves_snoc, moves_inverse nd hm n p1 p' z hz h2]
    exact move_inverse hm hx h1

/-- **C31.**  On every well linked tree: after a successful `down(n)`, `up(n)` brings the cursor
back; after `next(n)`, `prev(n)`; after `prev(n)`, `next(n)`. -/
theorem C31_inverse {t : TNode α} (h : WellLinked t) {c c' : Cursor} (hc : On t c)
    {m m' : Spec.Move} (hm : m.inverse = some m') (n : Nat)
    (hgo : Cursor.move t m n c = .ok c') : Cursor.move t m' n c' = .ok c := by
  obtain ⟨r, rfl, nd⟩ := h.embed
  obtain ⟨p, hp⟩ := on_at hc
  have hs := shape_embed r.handle r
  obtain ⟨-, h1, h2⟩ := C31_moves (wellLinked_embed nd) hs hp m n
  cases hv : Spec.moves r m n p with
  | none =>
    rw [h2 hv] at hgo
    exact absurd hgo (by simp)
  | some p' =>
    obtain ⟨c1, hc1, hat⟩ := h1 p' hv
    rw [hc1] at hgo
    cases hgo
    obtain ⟨x, hx, rfl⟩ := hp
    have hinv := moves_inverse nd hm n p p' x hx hv
    obtain ⟨-, h3, -⟩ := C31_moves (wellLinked_embed nd) hs hat m' n
    obtain ⟨c2, hc2, x2, hx2, rfl⟩ := h3 p hinv
    rw [hx] at hx2
    cases hx2
    exact hc2

/-- The two checked moves: the question, the step and the plain move. -/
theorem try_at {r : Rose α} (nd : r.handles.Nodup) (m : Spec.Move)
    (go : Cursor → Res Cursor)
    (hgo : ∀ p p' x, r.at p = some x → Spec.move r m p = some p' →
      ∃ z, r.at p' = some z ∧ go (some (.node x.handle)) = .ok (some (.node z.handle))) :
    ∀ (n : Nat) (p : List Nat) (x : Rose α), r.at p = some x →
    (∀ p', Spec.moves r m n p = some p' → ∃ z, r.at p' = some z ∧
      tryTimes (Cursor.has (embedRoot r) m) go n (some (.node x.handle))
        = .ok (some (.node z.handle), true)) ∧
    (Spec.moves r m n p = none → ∃ k p' z, k < n ∧ Spec.moves r m k p = some p' ∧
      Spec.move r m p' = none ∧ r.at p' = some z ∧
      tryTimes (Cursor.has (embedRoot r) m) go n (some (.node x.handle))
        = .ok (some (.node z.handle), false))
  | 0, p, x, hx => by
    simp only [Spec.moves, tryTimes]
    refine ⟨?_, by simp⟩
    rintro p' ⟨⟩
    exact ⟨x, hx, rfl⟩
  | n + 1, p, x, hx => by
    simp only [Spec.moves, tryTimes, has_at nd hx m, Res.ok_bind]
    cases hm : Spec.move r m p with
    | none =>
      refine ⟨by simp, fun _ => ⟨0, p, x, by omega, rfl, hm, hx, ?_⟩⟩
      simp
    | some p1 =>
      obtain ⟨z, hz, hg⟩ := hgo p p1 x hx hm
      obtain ⟨h1, h2⟩ := try_at nd m go hgo n p1 z hz
      simp only [Option.isSome_some, Option.bind_some, hg, Res.ok_bind, Bool.true_eq_false,
        if_false]
      refine ⟨h1, fun hn => ?_⟩
      obtain ⟨k, p', y, hk, hp', hnone, hy, ht⟩ := h2 hn
      exact ⟨k + 1, p', y, by omega, by rw [Spec.moves, hm]; exact hp', hnone, hy, ht⟩

/-- The `try_` functions by name. -/
inductive TryMove where
  | next | down

def TryMove.plain : TryMove → Spec.Move
  | .next => .next
  | .down => .down

def Cursor.tryMove (t : TNode α) : TryMove → Nat → Cursor → Res (Cursor × Bool)
  | .next => Cursor.tryNext t
  | .down => Cursor.tryDown t

theorem tryMove_at {r x : Rose α} {p : List Nat} (nd : r.handles.Nodup) (hx : r.at p = some x)
    (m : TryMove) (n : Nat) :
    (∀ p', Spec.moves r m.plain n p = some p' → ∃ z, r.at p' = some z ∧
      Cursor.tryMove (embedRoot r) m n (some (.node x.handle))
        = .ok (some (.node z.handle), true)) ∧
    (Spec.moves r m.plain n p = none → ∃ k p' z, k < n ∧ Spec.moves r m.plain k p = some p' ∧
      Spec.move r m.plain p' = none ∧ r.at p' = some z ∧
      Cursor.tryMove (embedRoot r) m n (some (.node x.handle))
        = .ok (some (.node z.handle), false)) := by
  cases m with
  | next =>
    exact try_at nd .next (Cursor.bump (embedRoot r))
      (fun p p' x hx hm => bump_done nd hx hm) n p x hx
  | down =>
    exact try_at nd .down (Cursor.toFirst (embedRoot r))
      (fun p p' x hx hm => toFirst_done nd hx hm) n p x hx

/-- **C31.**  `try_next(n)` and `try_down(n)` on every well linked tree: they always come back,
return true exactly when the plain move is legal, and then do the same as the plain move. -/
theorem C31_try {t : TNode α} (h : WellLinked t) {c : Cursor} (hc : On t c) (m : TryMove)
    (n : Nat) :
    ∃ c' b, Cursor.tryMove t m n c = .ok (c', b) ∧ On t c' ∧
      (b = true ↔ ∃ c1, Cursor.move t m.plain n c = .ok c1) ∧
      (b = true → Cursor.move t m.plain n c = .ok c') := by
  obtain ⟨r, rfl, nd⟩ := h.embed
  obtain ⟨p, hp⟩ := on_at hc
  have hs := shape_embed r.handle r
  obtain ⟨-, h1, h2⟩ := C31_moves (wellLinked_embed nd) hs hp m.plain n
  obtain ⟨x, hx, rfl⟩ := hp
  obtain ⟨h3, h4⟩ := tryMove_at nd hx m n
  cases hv : Spec.moves r m.plain n p with
  | none =>
    obtain ⟨k, p', z, hk, hp', hnone, hz, ht⟩ := h4 hv
    refine ⟨_, _, ht, at_on ⟨z, hz, rfl⟩, ?_, by simp⟩
    rw [h2 hv]
    simp
  | some p' =>
    obtain ⟨z, hz, ht⟩ := h3 p' hv
    obtain ⟨c1, hc1, z', hz', rfl⟩ := h1 p' hv
    rw [hz] at hz'
    cases hz'
    refine ⟨_, _, ht, at_on ⟨z, hz, rfl⟩, ?_, fun _ => hc1⟩
    simp [hc1]

/-- **C31.**  With the default count of one, a `try_` function that returns false has left the
cursor alone. -/
theorem C31_try_stays {t : TNode α} (h : WellLinked t) {c c' : Cursor} (hc : On t c)
    (m : TryMove) (n : Nat) (hn : n ≤ 1) (hgo : Cursor.tryMove t m n c = .ok (c', false)) :
    c' = c := by
  obtain ⟨r, rfl, nd⟩ := h.embed
  obtain ⟨p, x, hx, rfl⟩ := on_at hc
  obtain ⟨h3, h4⟩ := tryMove_at nd hx m n
  cases hv : Spec.moves r m.plain n p with
  | none =>
    obtain ⟨k, p', z, hk, hp', hnone, hz, ht⟩ := h4 hv
    rw [ht] at hgo
    cases hgo
    have : k = 0 := by omega
    subst this
    simp only [Spec.moves, Option.some.injEq] at hp'
    subst hp'
    rw [hx] at hz
    cases hz
    rfl
  | some p' =>
    obtain ⟨z, hz, ht⟩ := h3 p' hv
    rw [ht] at hgo
    exact absurd hgo (by simp)

/-- A root with two branches. -/
def demoRose : Rose Nat := .node 0 10 [.node 1 11 [], .node 2 12 [.node 3 13 []]]

theorem demoRose_nodup : demoRose.handles.Nodup := by
  simp [demoRose, Rose.handles, Rose.handlesAll]

/-- **C31 does not hold of counts above one**: `try_next(2)` on the first of two branches returns
false and leaves the cursor on the second. -/
theorem C31_violation_try_next :
    WellLinked (embedRoot demoRose) ∧ On (embedRoot demoRose) (some (.node 1)) ∧
    Cursor.tryNext (embedRoot demoRose) 2 (some (.node 1)) = .ok (some (.node 2), false) := by
  refine ⟨wellLinked_embed demoRose_nodup, ⟨1, ?_, rfl⟩, by rfl⟩
  rw [embedRoot, addrs_embed]
  simp [demoRose, Rose.handles, Rose.handlesAll]

/-- The same for `try_down(2)`. -/
theorem C31_violation_try_down :
    Cursor.tryDown (embedRoot demoRose) 2 (some (.node 0)) = .ok (some (.node 1), false) := by
  rfl

/-! ## Examples -/

example : Cursor.move (embedRoot demoRose) .down 1 (some (.node 0)) = .ok (some (.node 1)) := by
  rfl
example : Cursor.move (embedRoot demoRose) .next 1 (some (.node 1)) = .ok (some (.node 2)) := by
  rfl
example : Cursor.move (embedRoot demoRose) .up 2 (some (.node 3)) = .ok (some (.node 0)) := by
  rfl
example : Cursor.tryMove (embedRoot demoRose) .next 1 (some (.node 2))
    = .ok (some (.node 2), false) := by
  rfl
example : At demoRose [1, 0] (some (.node 3)) := ⟨.node 3 13 [], rfl, rfl⟩

end Tr
end FLPR
