import Verif.Apps.ModuleFind
/-!
# C73: the application `module`
-/

namespace FLPR
namespace Spec
open PP Proc

/-- The procedure `p` of the node `n`, in the tree `t` that a parser of the library made, without extensions, of the
statements of `s`, which had no trees. -/
structure OfFresh (s : PState) (o : POut) (t n : PNode) (p : Procd) : Prop where
  of : OfParse noExts s o n p
  tree : o.tree = some t
  new : ∃ p0, make = .ok p0 ∧ ingest p0 n = .ok (true, p)
  fresh : s.attached = []
  good : ∀ (j : Nat) (st : LStmt), s.stmts[j]? = some st → GoodStmt st.strm

/-- Some statement of the execution part calls one of `names`. -/
def CallsIn (s : PState) (n : PNode) (names : List Str) : Prop :=
  ∃ j ∈ regionStmts n 5, ∃ st, s.stmts[j]? = some st ∧ Calls st.strm names

/-- The same for a statement that has a leaf of its own in the tree of the program. -/
def CallsOwn (s : PState) (t n : PNode) (names : List Str) : Prop :=
  ∃ j ∈ regionStmts n 5, ∃ st, s.stmts[j]? = some st ∧ Calls st.strm names ∧ (j, Tag.SG_ACTION_STMT) ∈ ownLeaves t

/-- Some use statement of the procedure is for the module `lc`. -/
def UsesModule (s : PState) (n : PNode) (lc : Str) : Prop :=
  ∃ j ∈ regionStmts n 1, ∃ st a, s.stmts[j]? = some st ∧ UsedModule (restOf st.strm) a ∧ a.lowerText.1 = lc

end Spec

namespace Apps
open PP Reg Proc Spec
open SP (SNode R Exts Strm)

/-- C73: `has_call_named` on the tree that `action_stmt` makes returns, and finds just the calls, also those in if
statements, of the procedures that are named. -/
theorem C73_call (st q : Strm) (t : SNode) (u : Int) (names : List Str) (hs : GoodStmt st)
    (h : Returns noExts .action_stmt st (.ok (some t, q))) (hu : treeTag (some t) = .ok u) :
    ∃ b, callNamed st.all names u t = .ok b ∧ (b = true ↔ Calls st names) :=
  call_named hs h hu names

theorem region_lt {s : PState} {o : POut} {t n : PNode} {p : Procd} (h : OfFresh s o t n p) {i j : Nat} (hi : i < 8)
    (hj : j ∈ regionStmts n i) : j < s.stmts.length := by
  obtain ⟨b, e, _, _, pre, post, h1, h2, _, _⟩ := h.of.regions.2.2.2.1.here i hi (List.ne_nil_of_mem hj)
  obtain ⟨k, hk⟩ := List.exists_cons_of_ne_nil h2
  obtain ⟨l, hk⟩ := hk
  rw [hk] at h1
  have hsort : (List.range (s.stmts.length + 1)).Pairwise (· < ·) := List.pairwise_lt_range
  have hkN : k < s.stmts.length + 1 := by
    rw [← List.mem_range, h1]
    simp
  rw [h1, List.pairwise_append] at hsort
  have := hsort.2.2 j (by simp [hj]) k (by simp)
  omega

/-- The loop over the execution part. -/
theorem calls_found {s : PState} {o : POut} {t n : PNode} {p : Procd} (h : OfFresh s o t n p) (names : List Str) :
    ∃ b, anyCall o.s names (regionStmts n 5) = .ok b ∧ (b = true → CallsIn s n names) ∧ (CallsOwn s t n names → b = true) := by
  obtain ⟨r, hr⟩ := h.of.parse
  have hst : o.s.stmts = s.stmts := h.of.stmts
  have each : ∀ j ∈ regionStmts n 5, ∃ b, hasCall o.s names j = .ok b ∧ (b = true → ∃ st, s.stmts[j]? = some st ∧ Calls st.strm names) := by
    intro j hj
    have hlt := region_lt h (by omega) hj
    cases htr : o.s.treeOf j with
    | none =>
      refine ⟨false, ?_, fun hh => (by cases hh)⟩
      rw [hasCall, htr, treeTag, Res.ok_bind, if_pos (by decide)]
    | some tr =>
      obtain ⟨_, r', hr', st, q, a1, a2⟩ := C68_only noExts r s o hr h.fresh j tr hlt htr
      obtain ⟨b, b1, b2, _⟩ := hasCall_made (s' := o.s) (by rw [hst]; exact a1) htr hr' a2 (h.good j st a1) names
      exact ⟨b, b1, fun hb => ⟨st, a1, b2 hb⟩⟩
  obtain ⟨b, b1, b2⟩ := anyCall_ok (fun j hj => by obtain ⟨b, hb, _⟩ := each j hj; exact ⟨b, hb⟩)
  refine ⟨b, b1, ?_, ?_⟩
  · intro hb
    obtain ⟨j, hj, hc⟩ := b2.mp hb
    obtain ⟨b', hb', hc'⟩ := each j hj
    rw [hc] at hb'
    injection hb' with hb'
    obtain ⟨st, h1, h2⟩ := hc' hb'.symm
    exact ⟨j, hj, st, h1, h2⟩
  · rintro ⟨j, hj, st, h1, h2, h3⟩
    refine b2.mpr ⟨j, hj, ?_⟩
    obtain ⟨tr, r', hr', st', q, a1, a2, a3, a4, a5⟩ :=
      C68_trees_partial noExts SP.forward_none needToken_none r s h.of.full o t hr h.tree _ h3
    rw [h1] at a3
    injection a3 with a3
    subst a3
    obtain ⟨b', b3, _, b5⟩ := hasCall_made (s' := o.s) (by rw [hst]; exact h1) a1 hr' a4 (h.good j st h1) names
    rw [b3, b5 (actionTag_only a5.symm) h2]

/-- The loop over the use statements. -/
theorem uses_found {s : PState} {o : POut} {t n : PNode} {p : Procd} (h : OfFresh s o t n p) (lc : Str) :
    ∃ b, anyUse o.s lc false (regionStmts n 1) = .ok b ∧ (b = true ↔ UsesModule s n lc) := by
  obtain ⟨r, hr⟩ := h.of.parse
  have hst : o.s.stmts = s.stmts := h.of.stmts
  have hnode : n ∈ nodesOf t := by
    obtain ⟨t', h1, h2⟩ := h.of.node
    rw [h.tree] at h1
    injection h1 with h1
    rw [h1]
    exact h2
  have htree := ((C39_tree_partial noExts h.of.fwd h.of.need r s h.of.full o hr).2.2.2 t h.tree).1
  have each : ∀ j ∈ regionStmts n 1, ∃ st a, s.stmts[j]? = some st ∧ UsedModule (restOf st.strm) a ∧ useName o.s j = .ok a.lowerText.1 := by
    intro j hj
    rw [regionStmts, List.mem_flatMap] at hj
    obtain ⟨k, hk, hjk⟩ := hj
    rw [List.mem_filter] at hk
    have hu := region_use (by simpa using hk.2)
    obtain ⟨k1, j', k2⟩ := uses_leaves h.of.fwd h.of.need h.of.full hr h.of.ok h.tree hnode h.of.kind hk.1 hu
    have hjj : j = j' := by
      obtain ⟨a, b, c, d⟩ := k
      cases k2
      simpa [stmtsUnder, leavesOf, squash, consNew] using hjk
    subst hjj
    obtain ⟨tr, r', hr', st, q, a1, a2, a3, a4, a5⟩ :=
      C68_trees_partial noExts SP.forward_none needToken_none r s h.of.full o t hr h.tree _ (node_own htree k1 k2 (by rw [hu]; decide))
    have : r' = .use_stmt := use_tag (by rw [← a5]; exact hu)
    subst this
    obtain ⟨a, b1, b2⟩ := useName_of (s' := o.s) (by rw [hst]; exact a3) a1 a4 (h.good j st a3)
    exact ⟨st, a, a3, b2, b1⟩
  obtain ⟨b, b1, b2⟩ := anyUse_ok (lc := lc) (found := false) (fun j hj => by obtain ⟨_, a, _, _, hb⟩ := each j hj; exact ⟨_, hb⟩)
  refine ⟨b, b1, b2.trans ?_⟩
  constructor
  · rintro (hh | ⟨j, hj, hn⟩)
    · cases hh
    · obtain ⟨st, a, e1, e2, e3⟩ := each j hj
      rw [hn] at e3
      injection e3 with e3
      exact ⟨j, hj, st, a, e1, e2, e3.symm⟩
  · rintro ⟨j, hj, st, a, e1, e2, e3⟩
    refine .inr ⟨j, hj, ?_⟩
    obtain ⟨st', a', f1, f2, f3⟩ := each j hj
    rw [e1] at f1
    injection f1 with f1
    subst f1
    rw [f3, SP.usedModule_unique f2 e2, e3]

theorem ingest_valid {p0 p : Procd} {n : PNode} (h : ingest p0 n = .ok (true, p)) : p.ranges.validate = .ok () := by
  rw [ingest] at h
  split at h
  · rbind h with b hb
    rbind h with s hs
    split at h
    · cases h
    · split at h
      · rbind h with r hr
        rbind h with u hu
        injection h with h
        injection h with _ h
        rw [← h]
        exact hu
      · cases h
  · injection h with h
    injection h with h _
    cases h

/-- The end of `Module_Action::operator()`. -/
def addUse (mk : Str → Res LLine) (m : ModuleAction) (s : PState) (fl : LFile) (p : Procd) : Res (Bool × LFile) := do
  let ub ← p.ranges.mbegin USES
  let ue ← ub.2.mend USES
  let us ← stmtsBetween ub.1 ue.1
  let used ← anyUse s m.lc false us
  if used = true then .ok (true, fl) else do
  let pos ← ue.2.mend USES
  let ll ← mk ("use ".toList ++ m.name)
  match pos.1 with
  | none => .error .ub
  | some pos' => do
    let w ← ({ p with ranges := pos.2 } : Procd).emplaceAfterPrefix fl USES pos' ll Tag.SG_USE_STMT
    .ok (true, w.1)

/-- `Module_Action::operator()` up to where the use statements are looked at. -/
theorem run_start {s : PState} {o : POut} {t n : PNode} {p : Procd} (h : OfFresh s o t n p) (mk : Str → Res LLine) (m : ModuleAction)
    (fl : LFile) : ∃ b, (b = true → CallsIn s n m.subs) ∧ (CallsOwn s t n m.subs → b = true) ∧
      m.run mk o.s fl n false = (if b = false then .ok (false, fl) else addUse mk m o.s fl p) := by
  obtain ⟨p0, h1, h2⟩ := h.new
  have hright := h.of.regions.2.2.2.1
  obtain ⟨b, b1, b2, b3⟩ := calls_found h m.subs
  refine ⟨b, b2, b3, ?_⟩
  rw [ModuleAction.run, if_neg (by simp), h1, Res.ok_bind, h2, Res.ok_bind]
  simp only [Bool.true_eq_false, if_false]
  have he := hright.empty EXECUTION_PART (by decide)
  rw [he, Res.ok_bind]
  by_cases hne : regionStmts n 5 = []
  · have hb : b = false := by
      rw [hne] at b1
      injection b1 with b1
      exact b1.symm
    rw [if_pos hb, show (regionStmts n EXECUTION_PART) = [] from hne, List.isEmpty_nil, if_pos rfl]
    rcases first_of h.of with ⟨_, g, _⟩ | ⟨_, _, _, _, _, _, _, _, _, _, _, g, _⟩
    · rw [g, Res.ok_bind]
    · rw [g, Res.ok_bind]
  · rw [if_neg (by rw [List.isEmpty_iff]; exact hne)]
    obtain ⟨bb, ee, k1, k2, k3⟩ := hright.here EXECUTION_PART (by decide) hne
    rw [k1, Res.ok_bind, k2, Res.ok_bind, between_of k3, Res.ok_bind, show regionStmts n EXECUTION_PART = regionStmts n 5 from rfl,
      b1, Res.ok_bind]
    rfl

theorem last_region {s : PState} {o : POut} {t n : PNode} {p : Procd} (h : OfFresh s o t n p) : regionStmts n 7 ≠ [] := by
  have he := h.of.ends.full
  intro hnil
  rw [h.of.regions.2.2.2.1.empty PROC_END (by decide), show regionStmts n PROC_END = [] from hnil] at he
  cases he

/-- C73: a procedure in which none of the subroutines is called is left alone. -/
theorem C73_none (s : PState) (o : POut) (t n : PNode) (p : Procd) (h : OfFresh s o t n p) (mk : Str → Res LLine) (name : Str)
    (subs : List Str) (fl : LFile) (hc : ¬ CallsIn s n (subs.map (·.map lowChar))) :
    (ModuleAction.make name subs).run mk o.s fl n false = .ok (false, fl) := by
  obtain ⟨b, h1, _, h3⟩ := run_start h mk (ModuleAction.make name subs) fl
  rw [h3, if_pos]
  cases b with
  | false => rfl
  | true => exact absurd (h1 rfl) hc

/-- C73: a procedure that calls one of the subroutines and uses the module is left alone too, though the answer is that it
was changed.  Missing: calls in a statement that several loops end at. -/
theorem C73_used_partial (s : PState) (o : POut) (t n : PNode) (p : Procd) (h : OfFresh s o t n p) (mk : Str → Res LLine) (name : Str)
    (subs : List Str) (fl : LFile) (hc : CallsOwn s t n (subs.map (·.map lowChar))) (hu : UsesModule s n (name.map lowChar)) :
    (ModuleAction.make name subs).run mk o.s fl n false = .ok (true, fl) := by
  obtain ⟨b, _, h2, h3⟩ := run_start h mk (ModuleAction.make name subs) fl
  obtain ⟨p0, _, hin⟩ := h.new
  have hne : regionStmts n 1 ≠ [] := by
    obtain ⟨j, hj, _⟩ := hu
    exact List.ne_nil_of_mem hj
  obtain ⟨b0, r', e, r'', g1, g2, g3⟩ := (look_region h.of.regions.2.2.2.1 (ingest_valid hin) (i := 1) (by omega) (last_region h)).2 hne
  obtain ⟨u, u1, u2⟩ := uses_found h (name.map lowChar)
  rw [h3, if_neg (by rw [h2 hc]; simp), addUse, show p.ranges.mbegin USES = _ from g1, Res.ok_bind]
  simp only []
  rw [show r'.mend USES = _ from g2, Res.ok_bind]
  simp only []
  rw [g3, Res.ok_bind, show (ModuleAction.make name subs).lc = name.map lowChar from rfl, u1, Res.ok_bind, if_pos (u2.mpr hu)]

/-- C73: if it returns, then the lines are as before, and it was only for a procedure that calls one of the subroutines and
uses the module that it answered with true. -/
theorem C73_unchanged (s : PState) (o : POut) (t n : PNode) (p : Procd) (h : OfFresh s o t n p) (mk : Str → Res LLine) (name : Str)
    (subs : List Str) (fl : LFile) (v : Bool × LFile) (hv : (ModuleAction.make name subs).run mk o.s fl n false = .ok v) :
    v.2 = fl ∧ (v.1 = true → CallsIn s n (subs.map (·.map lowChar)) ∧ UsesModule s n (name.map lowChar)) := by
  obtain ⟨b, h1, h2, h3⟩ := run_start h mk (ModuleAction.make name subs) fl
  obtain ⟨p0, _, hin⟩ := h.new
  rw [h3] at hv
  cases b with
  | false =>
    injection hv with hv
    subst hv
    exact ⟨rfl, fun hh => (by cases hh)⟩
  | true =>
    rw [if_neg (by simp), addUse] at hv
    rbind hv with ub hub
    rbind hv with ue hue
    rbind hv with us hus
    rbind hv with used hused
    obtain ⟨b0, r'⟩ := ub
    obtain ⟨e0, r''⟩ := ue
    have hus' := (look_region h.of.regions.2.2.2.1 (ingest_valid hin) (i := 1) (by omega) (last_region h)).1 _ _ _ _ _ hub hue hus
    subst hus'
    obtain ⟨u, u1, u2⟩ := uses_found h (name.map lowChar)
    rw [show (ModuleAction.make name subs).lc = name.map lowChar from rfl, u1] at hused
    injection hused with hused
    subst hused
    cases u with
    | true =>
      injection hv with hv
      subst hv
      exact ⟨rfl, fun _ => ⟨h1 rfl, u2.mp rfl⟩⟩
    | false =>
      rw [if_neg (by simp)] at hv
      rbind hv with pos hpos
      rbind hv with ll hll
      split at hv
      · cases hv
      · rbind hv with w hw
        exact absurd hw (emplace_never _ _ _ _ _ _ _)

/-- C73 fails where there is something to do: for a procedure that calls one of the subroutines and does not use the
module, nothing comes back. -/
theorem C73_violation_use (s : PState) (o : POut) (t n : PNode) (p : Procd) (h : OfFresh s o t n p) (mk : Str → Res LLine) (name : Str)
    (subs : List Str) (fl : LFile) (hc : CallsOwn s t n (subs.map (·.map lowChar))) (hu : ¬ UsesModule s n (name.map lowChar))
    (v : Bool × LFile) : (ModuleAction.make name subs).run mk o.s fl n false ≠ .ok v := by
  intro hv
  obtain ⟨_, h2⟩ := C73_unchanged s o t n p h mk name subs fl v hv
  obtain ⟨b, _, b2, b3⟩ := run_start h mk (ModuleAction.make name subs) fl
  rw [b3, if_neg (by rw [b2 hc]; simp), addUse] at hv
  have hv1 : v.1 = true := by
    rbind hv with ub hub
    rbind hv with ue hue
    rbind hv with us hus
    rbind hv with used hused
    split at hv
    · injection hv with hv
      rw [← hv]
    · rbind hv with pos hpos
      rbind hv with ll hll
      split at hv
      · cases hv
      · rbind hv with w hw
        injection hv with hv
        rw [← hv]
  exact hu (h2 hv1).2

end Apps
end FLPR
