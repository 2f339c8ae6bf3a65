import Verif.Apps.ShowCst
import Verif.StmtParser.ParserProps
import Mathlib.Data.List.Forall2
/-!
# C87: flpr_show_cst prints the tree of every statement parser that accepts the statement
-/

namespace FLPR
namespace Apps
open SP Spec

theorem rewind_back {x : Exts} (hx : GoodExts x) {tag : Int} {s t : Strm} {n : SNode} (hs : GoodStmt s) (h0 : s.pos = s.lo)
    (h : DispatchReturns x tag s (.ok (some n, t))) : t.rewind = s := by
  obtain ⟨_, _, h1, _⟩ := C26_dispatch_partial x hx tag s t n hs h
  rw [h1]
  cases s
  simp only [Strm.rewind, Strm.goto] at h0 ⊢
  rw [h0]

theorem dispatch_unique {x : Exts} (hx : x.Forward) {tag : Int} {s : Strm} {a b : Res (Option SNode × Strm)}
    (ha : DispatchReturns x tag s a) (hb : DispatchReturns x tag s b) : a = b := by
  obtain ⟨c, _, hc⟩ := C52_dispatch x hx tag s
  rw [hc _ ha, hc _ hb]

/-- What the loop does from a stream at the start of a statement. -/
theorem loop_total {x : Exts} (hx : GoodExts x) (hf : x.Forward) {s : Strm} (hs : GoodStmt s) (h0 : s.pos = s.lo) :
    ∀ (tags : List Int) (k : Nat), ∃ res, ShowLoop x tags k s res := by
  intro tags
  induction tags with
  | nil => exact fun k => ⟨_, .done⟩
  | cons tag tags ih =>
    intro k
    cases ht : isStmtTag tag with
    | false => obtain ⟨r, hr⟩ := ih k; exact ⟨r, .skip ht hr⟩
    | true =>
      obtain ⟨c, hc, _⟩ := C52_dispatch x hf tag s
      match c, hc with
      | .error e, hc => exact ⟨_, .fail ht hc⟩
      | .ok (none, t), hc =>
        have := C25_dispatch x tag s t hc
        subst this
        obtain ⟨r, hr⟩ := ih k
        exact ⟨r, .no ht hc hr⟩
      | .ok (some n, t), hc =>
        obtain ⟨r, hr⟩ := ih (k + 1)
        rw [← rewind_back hx hs h0 hc] at hr
        match r, hr with
        | .ok (out, k'), hr => exact ⟨_, .yes ht hc hr⟩
        | .error e, hr => exact ⟨_, .yesFail ht hc hr⟩

theorem loop_unique {x : Exts} (hf : x.Forward) {tags : List Int} {k : Nat} {s : Strm} {a : Res (List ShowLine × Nat)}
    (ha : ShowLoop x tags k s a) : ∀ b, ShowLoop x tags k s b → b = a := by
  induction ha with
  | done => intro b hb; cases hb; rfl
  | skip h _ ih =>
    intro b hb
    cases hb with
    | skip _ h2 => exact ih _ h2
    | no h1 => rw [h] at h1; cases h1
    | yes h1 => rw [h] at h1; cases h1
    | yesFail h1 => rw [h] at h1; cases h1
    | fail h1 => rw [h] at h1; cases h1
  | no h g _ ih =>
    intro b hb
    cases hb with
    | skip h1 => rw [h] at h1; cases h1
    | no _ g' h2 => cases dispatch_unique hf g g'; exact ih _ h2
    | yes _ g' => cases dispatch_unique hf g g'
    | yesFail _ g' => cases dispatch_unique hf g g'
    | fail _ g' => cases dispatch_unique hf g g'
  | yes h g _ ih =>
    intro b hb
    cases hb with
    | skip h1 => rw [h] at h1; cases h1
    | no _ g' => cases dispatch_unique hf g g'
    | yes _ g' h2 => cases dispatch_unique hf g g'; cases ih _ h2; rfl
    | yesFail _ g' h2 => cases dispatch_unique hf g g'; cases ih _ h2
    | fail _ g' => cases dispatch_unique hf g g'
  | yesFail h g _ ih =>
    intro b hb
    cases hb with
    | skip h1 => rw [h] at h1; cases h1
    | no _ g' => cases dispatch_unique hf g g'
    | yes _ g' h2 => cases dispatch_unique hf g g'; cases ih _ h2
    | yesFail _ g' h2 => cases dispatch_unique hf g g'; cases ih _ h2; rfl
    | fail _ g' => cases dispatch_unique hf g g'
  | fail h g =>
    intro b hb
    cases hb with
    | skip h1 => rw [h] at h1; cases h1
    | no _ g' => cases dispatch_unique hf g g'
    | yes _ g' => cases dispatch_unique hf g g'
    | yesFail _ g' => cases dispatch_unique hf g g'
    | fail _ g' => cases dispatch_unique hf g g'; rfl

/-- The lines of a loop that ends. -/
theorem loop_ok {x : Exts} (hx : GoodExts x) (hf : x.Forward) {s : Strm} (hs : GoodStmt s) (h0 : s.pos = s.lo) :
    ∀ (tags : List Int) (k : Nat) (out : List ShowLine) (k' : Nat), ShowLoop x tags k s (.ok (out, k')) →
    ∃ (ts : List Int) (ns : List SNode), ts.Sublist tags ∧
      (∀ tag ∈ tags, isStmtTag tag = true → ¬ DispatchReturns x tag s (.error .ub)) ∧
      (∀ tag, tag ∈ ts ↔ tag ∈ tags ∧ isStmtTag tag = true ∧ ∃ n, Accepts x s tag n) ∧
      List.Forall₂ (Accepts x s) ts ns ∧ out = ns.mapIdx (fun i t => .tree (k + i + 1) t) ∧ k' = k + ns.length := by
  intro tags
  induction tags with
  | nil =>
    intro k out k' h
    cases h
    exact ⟨[], [], .slnil, by simp, by simp, .nil, rfl, rfl⟩
  | cons tag tags ih =>
    intro k out k' h
    cases h with
    | skip ht h2 =>
      obtain ⟨ts, ns, a1, a2, a3, a4, a5, a6⟩ := ih _ _ _ h2
      refine ⟨ts, ns, a1.cons _, ?_, ?_, a4, a5, a6⟩
      · intro u hu hu2
        rcases List.mem_cons.mp hu with rfl | hu
        · rw [ht] at hu2; cases hu2
        · exact a2 u hu hu2
      · intro u
        rw [a3]
        constructor
        · rintro ⟨b1, b2⟩; exact ⟨List.mem_cons_of_mem _ b1, b2⟩
        · rintro ⟨b1, b2, b3⟩
          rcases List.mem_cons.mp b1 with rfl | b1
          · rw [ht] at b2; cases b2
          · exact ⟨b1, b2, b3⟩
    | no ht hc h2 =>
      have hss := C25_dispatch x tag s _ hc
      subst hss
      obtain ⟨ts, ns, a1, a2, a3, a4, a5, a6⟩ := ih _ _ _ h2
      refine ⟨ts, ns, a1.cons _, ?_, ?_, a4, a5, a6⟩
      · intro u hu hu2
        rcases List.mem_cons.mp hu with rfl | hu
        · intro he; cases dispatch_unique hf hc he
        · exact a2 u hu hu2
      · intro u
        rw [a3]
        constructor
        · rintro ⟨b1, b2⟩; exact ⟨List.mem_cons_of_mem _ b1, b2⟩
        · rintro ⟨b1, b2, n, q, b3⟩
          rcases List.mem_cons.mp b1 with rfl | b1
          · cases dispatch_unique hf hc b3
          · exact ⟨b1, b2, n, q, b3⟩
    | yes ht hc h2 =>
      rw [rewind_back hx hs h0 hc] at h2
      obtain ⟨ts, ns, a1, a2, a3, a4, a5, a6⟩ := ih _ _ _ h2
      refine ⟨tag :: ts, _ :: ns, a1.cons_cons _, ?_, ?_, .cons ⟨_, hc⟩ a4, ?_, ?_⟩
      · intro u hu hu2
        rcases List.mem_cons.mp hu with rfl | hu
        · intro he; cases dispatch_unique hf hc he
        · exact a2 u hu hu2
      · intro u
        rw [List.mem_cons, List.mem_cons, a3]
        constructor
        · rintro (rfl | ⟨b1, b2⟩)
          · exact ⟨.inl rfl, ht, _, _, hc⟩
          · exact ⟨.inr b1, b2⟩
        · rintro ⟨rfl | b1, b2⟩
          · exact .inl rfl
          · exact .inr ⟨b1, b2⟩
      · rw [a5, List.mapIdx_cons]
        congr 2
        funext i t
        congr 1
        omega
      · rw [a6, List.length_cons]; omega

theorem dispatch_only_ub {x : Exts} (hx : GoodExts x) {tag : Int} {s : Strm} (hs : GoodStmt s) {e : Fail}
    (h : DispatchReturns x tag s (.error e)) : e = .ub ∧ EndsInParen s := by
  rw [dispatch_iff] at h
  cases hq : dispatchTable.find? (fun q => q.1 == tag) with
  | none => rw [hq] at h; cases h
  | some q =>
    rw [hq] at h
    rcases C55_only_ub x hx q.2 s hs _ h with ⟨w, hw⟩ | ⟨h1, _, h3⟩
    · cases hw
    · cases h1; exact ⟨rfl, h3⟩

theorem loop_fail {x : Exts} (hx : GoodExts x) {s : Strm} (hs : GoodStmt s) (h0 : s.pos = s.lo) :
    ∀ (tags : List Int) (k : Nat) (e : Fail), ShowLoop x tags k s (.error e) →
    e = .ub ∧ ∃ tag ∈ tags, isStmtTag tag = true ∧ DispatchReturns x tag s (.error .ub) := by
  intro tags
  induction tags with
  | nil => intro k e h; cases h
  | cons tag tags ih =>
    intro k e h
    cases h with
    | skip ht h2 => obtain ⟨a, u, b, c⟩ := ih _ _ h2; exact ⟨a, u, List.mem_cons_of_mem _ b, c⟩
    | no ht hc h2 =>
      have hss := C25_dispatch x tag s _ hc
      subst hss
      obtain ⟨a, u, b, c⟩ := ih _ _ h2
      exact ⟨a, u, List.mem_cons_of_mem _ b, c⟩
    | yesFail ht hc h2 =>
      rw [rewind_back hx hs h0 hc] at h2
      obtain ⟨a, u, b, c⟩ := ih _ _ h2
      exact ⟨a, u, List.mem_cons_of_mem _ b, c⟩
    | fail ht hc =>
      obtain ⟨rfl, _⟩ := dispatch_only_ub hx hs hc
      exact ⟨rfl, tag, List.mem_cons_self .., ht, hc⟩

/-- C87: the parsers that are tried are those of `parse_stmt_dispatch`, but for `loop-control`. -/
theorem C87_tried (tag : Int) :
    (tag ∈ sgIds ∧ isStmtTag tag = true) ↔ tag ∈ dispatchTable.map (·.1) ∧ tag ≠ Tag.SG_LOOP_CONTROL := by
  have h1 : ∀ u ∈ sgIds, isStmtTag u = true → u ∈ dispatchTable.map (·.1) ∧ u ≠ Tag.SG_LOOP_CONTROL := by decide +kernel
  have h2 : ∀ u ∈ dispatchTable.map (·.1), u ≠ Tag.SG_LOOP_CONTROL → u ∈ sgIds ∧ isStmtTag u = true := by decide +kernel
  exact ⟨fun h => h1 tag h.1 h.2, fun h => h2 tag h.1 h.2⟩

/-- C87: every number of the loop is a built-in tag, so that asking for its type is defined. -/
theorem C87_type (tag : Int) (h : tag ∈ sgIds) : ∃ v, Registry.type [] tag = .ok v := by
  have h1 : ∀ u ∈ sgIds, (Registry.type [] u).toOption.isSome = true := by decide +kernel
  have := h1 tag h
  cases hv : Registry.type [] tag with
  | ok v => exact ⟨v, rfl⟩
  | error e => rw [hv] at this; cases this

/-- C87: the loop ends in one way. -/
theorem C87_total (x : Exts) (hx : GoodExts x) (hf : x.Forward) (s : Strm) (hs : GoodStmt s) (h0 : s.pos = s.lo) :
    ∃ res, ShowStmt x s res ∧ ∀ res', ShowStmt x s res' → res' = res := by
  obtain ⟨r, hr⟩ := loop_total hx hf hs h0 sgIds 0
  have hu := loop_unique hf hr
  match r, hr, hu with
  | .error e, hr, hu =>
    refine ⟨_, .fail hr, ?_⟩
    rintro _ (⟨h, _⟩ | h | h) <;> cases hu _ h
    rfl
  | .ok (out, 0), hr, hu =>
    refine ⟨_, .none hr, ?_⟩
    rintro _ (⟨h, g⟩ | h | h) <;> cases hu _ h
    · exact absurd rfl g
    · rfl
  | .ok (out, k + 1), hr, hu =>
    refine ⟨_, .trees hr (by omega), ?_⟩
    rintro _ (⟨h, g⟩ | h | h) <;> cases hu _ h
    rfl

/-- C87: if the program comes through a statement, the trees that it prints are those of the parsers which
accept the statement, each once, in the order of the tags and numbered from 1; `Unrecognized` comes if there is
none. -/
theorem C87_shown (x : Exts) (hx : GoodExts x) (hf : x.Forward) (s : Strm) (hs : GoodStmt s) (h0 : s.pos = s.lo)
    (out : List ShowLine) (h : ShowStmt x s (.ok out)) :
    ∃ (ts : List Int) (ns : List SNode), ts.Pairwise (· < ·) ∧
      (∀ tag, tag ∈ ts ↔ tag ∈ dispatchTable.map (·.1) ∧ tag ≠ Tag.SG_LOOP_CONTROL ∧ ∃ n, Accepts x s tag n) ∧
      List.Forall₂ (Accepts x s) ts ns ∧
      out = if ts = [] then [.unrecognized] else numbered ns := by
  have hp : sgIds.Pairwise (· < ·) := by
    unfold sgIds
    rw [List.pairwise_map]
    exact (List.pairwise_lt_range).imp (by intro a b h; omega)
  have key : ∀ (o : List ShowLine) (k : Nat), ShowLoop x sgIds 0 s (.ok (o, k)) →
      ∃ (ts : List Int) (ns : List SNode), ts.Pairwise (· < ·) ∧
      (∀ tag, tag ∈ ts ↔ tag ∈ dispatchTable.map (·.1) ∧ tag ≠ Tag.SG_LOOP_CONTROL ∧ ∃ n, Accepts x s tag n) ∧
      List.Forall₂ (Accepts x s) ts ns ∧ o = numbered ns ∧ k = ns.length := by
    intro o k hl
    obtain ⟨ts, ns, a1, _, a3, a4, a5, a6⟩ := loop_ok hx hf hs h0 _ _ _ _ hl
    refine ⟨ts, ns, hp.sublist a1, ?_, a4, ?_, by omega⟩
    · intro tag
      rw [a3, ← and_assoc, C87_tried, and_assoc]
    · rw [a5]; unfold numbered; congr 1; funext i t; congr 1; omega
  cases h with
  | trees hl hk =>
    obtain ⟨ts, ns, a1, a2, a3, a4, a5⟩ := key _ _ hl
    refine ⟨ts, ns, a1, a2, a3, ?_⟩
    have : ts ≠ [] := by
      rintro rfl
      cases a3
      exact hk a5
    rw [if_neg this]; exact a4
  | none hl =>
    obtain ⟨ts, ns, a1, a2, a3, a4, a5⟩ := key _ _ hl
    have hn : ns = [] := List.length_eq_zero_iff.mp a5.symm
    subst hn
    cases a3
    exact ⟨[], [], a1, a2, .nil, by rw [if_pos rfl, a4]; rfl⟩

/-- C87: the program is undefined for a statement exactly if one of the parsers is, and there is no other failure. -/
theorem C87_undefined (x : Exts) (hx : GoodExts x) (hf : x.Forward) (s : Strm) (hs : GoodStmt s) (h0 : s.pos = s.lo) :
    (∀ e, ShowStmt x s (.error e) → e = .ub) ∧
    (ShowStmt x s (.error .ub) ↔ ∃ tag ∈ dispatchTable.map (·.1), tag ≠ Tag.SG_LOOP_CONTROL ∧ DispatchReturns x tag s (.error .ub)) := by
  refine ⟨?_, ?_, ?_⟩
  · rintro e (_ | _ | h); exact (loop_fail hx hs h0 _ _ _ h).1
  · rintro (_ | _ | h)
    obtain ⟨_, tag, b1, b2, b3⟩ := loop_fail hx hs h0 _ _ _ h
    obtain ⟨c1, c2⟩ := (C87_tried tag).mp ⟨b1, b2⟩
    exact ⟨tag, c1, c2, b3⟩
  · rintro ⟨tag, c1, c2, c3⟩
    obtain ⟨b1, b2⟩ := (C87_tried tag).mpr ⟨c1, c2⟩
    obtain ⟨r, hr⟩ := loop_total hx hf hs h0 sgIds 0
    match r, hr with
    | .error e, hr =>
      have := (loop_fail hx hs h0 _ _ _ hr).1
      subst this
      exact .fail hr
    | .ok (o, k), hr =>
      obtain ⟨_, _, _, a2, _⟩ := loop_ok hx hf hs h0 _ _ _ _ hr
      exact absurd c3 (a2 tag b1 b2)

/-- C87: a statement that does not end with `)` is shown. -/
theorem C87_defined (x : Exts) (hx : GoodExts x) (hf : x.Forward) (s : Strm) (hs : GoodStmt s) (h0 : s.pos = s.lo)
    (hp : ¬ EndsInParen s) : ∃ out, ShowStmt x s (.ok out) := by
  obtain ⟨r, hr, _⟩ := C87_total x hx hf s hs h0
  match r, hr with
  | .ok out, hr => exact ⟨out, hr⟩
  | .error e, hr =>
    have h1 := C87_undefined x hx hf s hs h0
    obtain rfl := h1.1 e hr
    obtain ⟨tag, _, _, h2⟩ := h1.2.mp hr
    exact absurd (dispatch_only_ub hx hs h2).2 hp

/-- The line `where (m)`. -/
def whereLine : Strm := lineOf [Tag.KW_WHERE, Tag.TK_PARENL, Tag.TK_NAME, Tag.TK_PARENR]

theorem whereLine_good : GoodStmt whereLine := by
  refine good_of (goodTags_of (by decide +kernel)) (.plain ⟨by decide, by decide, by decide, by decide⟩ ?_)
  exact .paren (a := [Tag.TK_NAME]) (b := []) (.plain ⟨by decide, by decide, by decide, by decide⟩ .nil) .nil

/-- The program is not defined for `where (m)`, the first line of a where construct: the parser of where statements is
tried on it too, and looks for a statement behind the last token. -/
theorem C87_violation_where : ShowStmt noExts whereLine (.error .ub) := by
  refine (C87_undefined noExts (by intro e he; cases he) (by intro e he; cases he) _ whereLine_good rfl).2.mpr ?_
  refine ⟨Tag.SG_WHERE_STMT, by decide +kernel, by decide +kernel, ?_⟩
  rw [dispatch_iff, show dispatchTable.find? (fun q => q.1 == Tag.SG_WHERE_STMT) = some (Tag.SG_WHERE_STMT, .where_stmt) by decide +kernel]
  exact returns_ub 60 (by decide +kernel)

/-- The line `x = y`. -/
def assignLine : Strm := lineOf [Tag.TK_NAME, Tag.TK_EQUAL, Tag.TK_NAME]

theorem assignLine_good : GoodStmt assignLine ∧ assignLine.pos = assignLine.lo ∧ ¬ EndsInParen assignLine := by
  refine ⟨good_of (goodTags_of (by decide +kernel)) ?_, rfl, ?_⟩
  · exact .plain ⟨by decide, by decide, by decide, by decide⟩ <| .plain ⟨by decide, by decide, by decide, by decide⟩ <|
      .plain ⟨by decide, by decide, by decide, by decide⟩ .nil
  · rintro ⟨_, h⟩
    revert h
    decide +kernel

/-- `x = y` is shown, and one of the lines is the tree of the assignment statement. -/
example : ∃ out, ShowStmt noExts assignLine (.ok out) ∧ out ≠ [.unrecognized] := by
  obtain ⟨hs, h0, hp⟩ := assignLine_good
  have g1 : GoodExts noExts := by intro e he; cases he
  have g2 : noExts.Forward := by intro e he; cases he
  obtain ⟨out, ho⟩ := C87_defined noExts g1 g2 _ hs h0 hp
  refine ⟨out, ho, ?_⟩
  obtain ⟨ts, ns, _, a2, a3, a4⟩ := C87_shown noExts g1 g2 _ hs h0 out ho
  have hm : Tag.SG_ASSIGNMENT_STMT ∈ ts := by
    rw [a2]
    refine ⟨by decide +kernel, by decide +kernel, ?_⟩
    obtain ⟨t, s', h1, h2⟩ := returns_of_holds (x := noExts) (r := .assignment_stmt) (s := assignLine)
      (q := fun t _ => t.isSome) 60 (by decide +kernel)
    cases t with
    | none => cases h2
    | some t =>
      refine ⟨t, s', ?_⟩
      rw [dispatch_iff, show dispatchTable.find? (fun q => q.1 == Tag.SG_ASSIGNMENT_STMT) = some (Tag.SG_ASSIGNMENT_STMT, .assignment_stmt) by decide +kernel]
      exact h1
  have hne : ts ≠ [] := List.ne_nil_of_mem hm
  rw [if_neg hne] at a4
  subst a4
  intro hc
  cases ns with
  | nil => cases a3; exact hne rfl
  | cons n ns => simp [numbered, List.mapIdx_cons] at hc

end Apps
end FLPR
