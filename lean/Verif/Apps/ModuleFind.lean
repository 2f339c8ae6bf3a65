import Verif.Apps.ModuleCall
import Verif.Procedure.EndProps
/-!
# Lemmas for C73: the statements of a procedure that `Module_Action` looks at
-/

namespace FLPR
namespace Apps
open PP Reg Proc Spec
open SP (SNode R Exts Strm)

theorem need_ok {c : Cur} {tag : Int} (h : c.1.tag = tag) : need c tag = .ok () := if_pos h

theorem need_leaf (tag : Int) (i : Nat) (l : List SNode) : need (leafAt tag i, l) tag = .ok () := if_pos rfl

theorem toCallee_of {k d : SNode} {sib args pre : List SNode} {i j : Nat} (hk : k.kids = leafAt Tag.KW_CALL i :: d :: args)
    (hd : d.tag = Tag.SG_PROCEDURE_DESIGNATOR) (hdk : d.kids = pre ++ [leafAt Tag.TK_NAME j])
    (hpre : pre = [] ∨ ∃ p ks, pre = p :: ks ∧ p.tag = Tag.SG_PART_REF) : toCallee (k, sib) = .ok (leafAt Tag.TK_NAME j, []) := by
  rw [toCallee, Cur.down]
  simp only [hk]
  rw [Res.ok_bind, need_leaf, Res.ok_bind, Cur.next]
  simp only []
  rw [Res.ok_bind, need_ok hd, Res.ok_bind, Cur.down]
  simp only [hdk]
  rcases hpre with rfl | ⟨p, ks, rfl, hp⟩
  · simp only [List.nil_append]
    rw [Res.ok_bind, if_neg (by show ¬ (Tag.TK_NAME = Tag.SG_PART_REF); decide), need_leaf, Res.ok_bind]
  · simp only [List.cons_append]
    rw [Res.ok_bind, if_pos hp, lastSibling]
    simp only [List.getLast?_append, List.getLast?_singleton, Option.some_or]
    rw [need_leaf, Res.ok_bind]

theorem frontTok_of {toks : List Tok} {tag : Int} {j : Nat} {a : Tok} (h : toks[j]? = some a) : frontTok toks (leafAt tag j) = .ok a := by
  rw [frontTok]
  show (if j < j + 1 then SP.derefTok toks j else .error .ub) = _
  rw [if_pos (Nat.lt_succ_self _), deref_some h]

/-- The call at the end of `has_call_named`. -/
theorem call_found {s q : Strm} {t : SNode} (hs : GoodStmt s) (h : Returns noExts .call_stmt s (.ok (some t, q))) (sib : List SNode) :
    ∃ c a, toCallee (t, sib) = .ok c ∧ frontTok s.all c.1 = .ok a ∧ Callee (restOf s) a := by
  obtain ⟨i, d, args, pre, j, a, h1, h2, h3, h4, h5, h6⟩ := SP.call_parts SP.goodExts_none hs h
  exact ⟨_, a, toCallee_of h1 h2 h3 h5, frontTok_of h4, h6⟩

theorem rest_tags {s : Strm} (h : GoodStmt s) : ∀ t ∈ (restOf s).map (·.token), LexerTag t := by
  intro t ht
  refine h.tags t ?_
  rw [restOf, List.mem_map] at ht
  obtain ⟨a, ha, rfl⟩ := ht
  exact List.mem_map.mpr ⟨a, List.mem_of_mem_take (List.mem_of_mem_drop ha), rfl⟩

theorem action_unique {s : Strm} {u v : Int} (h : Action s u) (h' : Action s v) : u = v := by
  obtain ⟨t, q, k, h1, h2, h3⟩ := h
  obtain ⟨t', q', k', h1', h2', h3'⟩ := h'
  have := h1.unique h1'
  injection this with this
  injection this with e1 _
  injection e1 with e1
  subst e1
  rw [h2] at h2'
  injection h2' with h2'
  rw [← h3, ← h3', h2']

theorem treeTag_action {t k : SNode} (h : t.tag = Tag.SG_ACTION_STMT) (hk : t.kids = [k]) : treeTag (some t) = .ok k.tag := by
  simp only [treeTag, if_pos h, Cur.down, hk]
  rfl

theorem treeTag_other {t : SNode} (h : t.tag ≠ Tag.SG_ACTION_STMT) : treeTag (some t) = .ok t.tag := by
  simp only [treeTag, if_neg h]
  rfl

/-- `has_call_named` on what `action_stmt` makes. -/
theorem call_named {st q : Strm} {t : SNode} {u : Int} (hs : GoodStmt st) (h : Returns noExts .action_stmt st (.ok (some t, q)))
    (hu : treeTag (some t) = .ok u) (names : List Str) : ∃ b, callNamed st.all names u t = .ok b ∧ (b = true ↔ Calls st names) := by
  obtain ⟨r, hr, k, h1, h2, h3, h4⟩ := SP.action_alt h
  rw [treeTag_action h1 h2] at hu
  injection hu with hu
  have hact : Action st u := ⟨t, q, k, h, h2, hu⟩
  by_cases hc : u = Tag.SG_CALL_STMT
  · subst hc
    obtain rfl := SP.alt_call hr (h3.symm.trans hu)
    obtain ⟨c, a, c1, c2, c3⟩ := call_found hs h4 []
    refine ⟨decide (a.lowerText.1 ∈ names), ?_, ?_⟩
    · rw [callNamed, if_neg (by simp), toAction, if_neg (by decide), Res.ok_bind, need_ok h1, Res.ok_bind, Cur.down]
      simp only [h2]
      rw [Res.ok_bind, if_neg (by simpa using hu), c1, Res.ok_bind, c2, Res.ok_bind]
    · rw [decide_eq_true_eq]
      constructor
      · exact fun ha => .inl ⟨hact, a, c3, ha⟩
      · rintro (⟨_, a', h5, h6⟩ | ⟨h5, _⟩)
        · rwa [SP.callee_unique (rest_tags hs) c3 h5]
        · exact absurd (action_unique hact h5) (by decide)
  · by_cases hi : u = Tag.SG_IF_STMT
    · subst hi
      obtain rfl := SP.alt_if hr (h3.symm.trans hu)
      obtain ⟨i, w, x, y, z, ta, k1, q', d1, d2, d3, d4, d5, d6⟩ := SP.if_parts hs h4
      have hs' := SP.goto_good hs d2 d3
      obtain ⟨r', hr', k', e1, e2, e3, e4⟩ := SP.action_alt d6
      have hact' : Action (st.goto i) k'.tag := ⟨ta, q', k', d6, e2, rfl⟩
      have hto : toAction Tag.SG_IF_STMT t = .ok (ta, []) := by
        rw [toAction, if_pos rfl, need_ok h1, Res.ok_bind, Cur.down]
        simp only [h2]
        rw [Res.ok_bind, need_ok hu, Res.ok_bind, Cur.down]
        simp only [d1]
        rw [Res.ok_bind, need_leaf, Res.ok_bind]
        rfl
      have hleft : ∀ {i' : Nat} {w' : List Tok} {a : Tok}, restOf st = w' ++ restOf (st.goto i') → ifHead.Is w' →
          Callee (restOf (st.goto i')) a → i' = i := by
        intro i' w' a g1 g2 g3
        have hl := SP.ifHead_unique d5 g2 (d4.symm.trans g1)
        have hr : restOf (st.goto i') = restOf (st.goto i) := by
          rw [d4] at g1
          exact (List.append_inj g1 hl).2.symm
        have hlen := congrArg List.length hr
        have hpos : 0 < (restOf (st.goto i')).length := by
          obtain ⟨_, _, _, _, g4, _⟩ := g3
          rw [g4]
          simp
        have hh := hs.hi_len
        simp only [restOf, List.length_drop, List.length_take, SP.Strm.goto] at hlen hpos
        omega
      by_cases hcc : k'.tag = Tag.SG_CALL_STMT
      · obtain rfl := SP.alt_call hr' (e3.symm.trans hcc)
        obtain ⟨c, a, c1, c2, c3⟩ := call_found hs' e4 []
        refine ⟨decide (a.lowerText.1 ∈ names), ?_, ?_⟩
        · rw [callNamed, if_neg (by simp), hto, Res.ok_bind, need_ok e1, Res.ok_bind, Cur.down]
          simp only [e2]
          rw [Res.ok_bind, if_neg (by simpa using hcc), c1, Res.ok_bind]
          rw [show frontTok st.all c.1 = .ok a from c2, Res.ok_bind]
        · rw [decide_eq_true_eq]
          constructor
          · exact fun ha => .inr ⟨hact, i, w, d4, d5, by rw [← hcc]; exact hact', a, c3, ha⟩
          · rintro (⟨h5, _⟩ | ⟨_, i', w', g1, g2, g3, a', g4, g5⟩)
            · exact absurd (action_unique hact h5) (by decide)
            · obtain rfl := hleft g1 g2 g4
              rwa [SP.callee_unique (rest_tags hs') c3 g4]
      · refine ⟨false, ?_, ?_⟩
        · rw [callNamed, if_neg (by simp), hto, Res.ok_bind, need_ok e1, Res.ok_bind, Cur.down]
          simp only [e2]
          rw [Res.ok_bind, if_pos hcc]
        · simp only [Bool.false_eq_true, false_iff]
          rintro (⟨h5, _⟩ | ⟨_, i', w', g1, g2, g3, a', g4, g5⟩)
          · exact absurd (action_unique hact h5) (by decide)
          · obtain rfl := hleft g1 g2 g4
            exact hcc (action_unique hact' g3)
    · refine ⟨false, ?_, ?_⟩
      · rw [callNamed, if_pos ⟨hc, hi⟩]
      · simp only [Bool.false_eq_true, false_iff]
        rintro (⟨h5, _⟩ | ⟨h5, _⟩)
        · exact hc (action_unique hact h5)
        · exact hi (action_unique hact h5)

/-! ### The statements of a parse -/

theorem call_if_tags {r : R} (h : r ∈ stmtRules) : r.rootTag ≠ Tag.SG_CALL_STMT ∧ r.rootTag ≠ Tag.SG_IF_STMT := by
  have : stmtRules.all (fun r => decide (r.rootTag ≠ Tag.SG_CALL_STMT ∧ r.rootTag ≠ Tag.SG_IF_STMT)) = true := by decide +kernel
  exact of_decide_eq_true (List.all_eq_true.mp this r h)

theorem use_tag {r : R} (h : r.rootTag = Tag.SG_USE_STMT) : r = .use_stmt := by
  have := SP.R.forall_of (q := fun r => decide (r.rootTag = Tag.SG_USE_STMT → r = .use_stmt)) (by decide +kernel) r
  exact of_decide_eq_true this h

theorem root_tag {x : Exts} {r : R} {s q : Strm} {t : SNode} (h : Returns x r s (.ok (some t, q))) : t.tag = r.rootTag := by
  obtain ⟨n, h⟩ := h.eval
  exact SP.runBody_tag (SP.eval_tag (x := x) SP.grammar_rootTag n) (SP.grammar_rootTag r) h rfl

/-- `has_call_named` on a statement with the tree that a statement parser made of it. -/
theorem hasCall_made {s' : PState} {j : Nat} {st : LStmt} {r : R} {n : SNode} {q : Strm} (hst : s'.stmts[j]? = some st)
    (ht : s'.treeOf j = some n) (hr : r ∈ stmtRules) (h : Returns noExts r st.strm (.ok (some n, q))) (hg : GoodStmt st.strm)
    (names : List Str) : ∃ b, hasCall s' names j = .ok b ∧ (b = true → Calls st.strm names) ∧
      (r = .action_stmt → Calls st.strm names → b = true) := by
  by_cases ha : r = .action_stmt
  · subst ha
    obtain ⟨r', hr', k, h1, h2, h3, h4⟩ := SP.action_alt h
    have hu := treeTag_action h1 h2
    obtain ⟨b, b1, b2⟩ := call_named hg h hu names
    refine ⟨b, ?_, b2.mp, fun _ => b2.mpr⟩
    rw [hasCall, ht, hu, Res.ok_bind]
    by_cases hc : k.tag ≠ Tag.SG_CALL_STMT ∧ k.tag ≠ Tag.SG_IF_STMT
    · rw [if_pos hc]
      rwa [callNamed, if_pos hc] at b1
    · rw [if_neg hc, stmtTree, hst, ht]
      exact b1
  · have htag := root_tag h
    have hn : n.tag ≠ Tag.SG_ACTION_STMT := fun hh => ha (actionTag_only (htag.symm.trans hh))
    refine ⟨false, ?_, fun hh => (by cases hh), fun hh => absurd hh ha⟩
    rw [hasCall, ht, treeTag_other hn, Res.ok_bind, if_pos (by rw [htag]; exact call_if_tags hr)]

theorem anyCall_ok {s : PState} {names : List Str} : ∀ {js : List Nat}, (∀ j ∈ js, ∃ b, hasCall s names j = .ok b) →
    ∃ b, anyCall s names js = .ok b ∧ (b = true ↔ ∃ j ∈ js, hasCall s names j = .ok true)
  | [], _ => ⟨false, rfl, by simp⟩
  | j :: js, h => by
    obtain ⟨b, hb⟩ := h j (by simp)
    cases b with
    | true => exact ⟨true, by rw [anyCall, hb, Res.ok_bind, if_pos rfl], by simp [hb]⟩
    | false =>
      obtain ⟨b', h1, h2⟩ := anyCall_ok (js := js) (fun i hi => h i (by simp [hi]))
      refine ⟨b', by rw [anyCall, hb, Res.ok_bind, if_neg (by simp), h1], ?_⟩
      rw [h2]
      simp [hb]

theorem anyUse_ok {s : PState} {lc : Str} : ∀ {js : List Nat} {found : Bool}, (∀ j ∈ js, ∃ nm, useName s j = .ok nm) →
    ∃ b, anyUse s lc found js = .ok b ∧ (b = true ↔ found = true ∨ ∃ j ∈ js, useName s j = .ok lc)
  | [], found, _ => ⟨found, rfl, by simp⟩
  | j :: js, found, h => by
    obtain ⟨nm, hnm⟩ := h j (by simp)
    obtain ⟨b, h1, h2⟩ := anyUse_ok (js := js) (lc := lc) (found := found || decide (nm = lc)) (fun i hi => h i (by simp [hi]))
    refine ⟨b, by rw [anyUse, hnm, Res.ok_bind, h1], ?_⟩
    rw [h2]
    simp [hnm, or_assoc]

/-! ### The regions -/

theorem between_of {N : Nat} {b e : It} {xs : List Nat} (h : Delimits (List.range (N + 1)) b e xs) : stmtsBetween b e = .ok xs := by
  obtain ⟨pre, post, h1, h2, h3, h4⟩ := h
  rw [List.range_eq_range', List.append_assoc, List.range'_eq_append_iff] at h1
  obtain ⟨k, k1, k2, k3⟩ := h1
  have k3 := k3.symm
  rw [List.range'_eq_append_iff] at k3
  obtain ⟨l, l1, l2, l3⟩ := k3
  have hl : 0 < N + 1 - k - l := by
    by_contra hh
    rw [l3, show N + 1 - k - l = 0 by omega] at h2
    exact h2 rfl
  have he : e = some (k + l) := by
    rw [h4, l3, List.head?_range', if_neg (by omega)]
    simp
  have hb : b = some k := by
    rw [h3, l2, l3]
    cases l with
    | zero => rw [List.range'_zero, List.nil_append, List.head?_range', if_neg (by omega)]; simp
    | succ l => rw [List.range'_succ]; simp
  subst he hb
  rw [stmtsBetween, if_pos (by omega), show k + l - k = l by omega, l2]
  simp

theorem validate_parts {T : Type} {r : RP T} : ∀ {n i last next : Nat}, r.validateLoop n i last next = .ok () →
    last < i ∨ r.endIdx ≤ last → i + n ≤ r.endIdx → ∀ k, i ≤ k → k < i + n →
    r.validIdx k = .ok true ∧ ∃ p, r.part k = .ok p ∧ ((p.succ = k ∧ p.pred = k) ∨ (p.active = true ∧ p.pred ≠ k))
  | 0, i, last, next, _, _, _, k, h1, h2 => by omega
  | n + 1, i, last, next, h, hl, hn, k, h1, h2 => by
    rw [RP.validateLoop] at h
    rbind h with v hv
    cases v with
    | false => cases h
    | true =>
      rw [if_pos rfl] at h
      rbind h with p hp
      by_cases hsp : p.succ = i ∧ p.pred = i
      · rw [if_pos hsp] at h
        by_cases ha : p.active = true
        · rw [if_pos ha] at h; cases h
        · rw [if_neg ha] at h
          by_cases hk : k = i
          · subst hk; exact ⟨hv, p, hp, .inl hsp⟩
          · exact validate_parts h (by omega) (by omega) k (by omega) (by omega)
      · rw [if_neg hsp] at h
        rbind h with a ha
        split at h
        · next hc =>
          simp only [Bool.and_eq_true, decide_eq_true_eq] at hc
          by_cases hk : k = i
          · subst hk
            refine ⟨hv, p, hp, .inr ⟨?_, by omega⟩⟩
            rw [RP.activeIdx, hv, Res.ok_bind, if_pos rfl, hp, Res.ok_bind] at ha
            injection ha with ha
            rw [ha]
            exact hc.1.1.1
          · exact validate_parts h (by omega) (by omega) k (by omega) (by omega)
        · cases h

theorem validate_ok {T : Type} {r : RP T} (h : r.validate = .ok ()) {k : Nat} (hk : k < r.endIdx) :
    r.validIdx k = .ok true ∧ ∃ p, r.part k = .ok p ∧ ((p.succ = k ∧ p.pred = k) ∨ (p.active = true ∧ p.pred ≠ k)) := by
  rw [RP.validate] at h
  split at h
  · rbind h with e he
    exact validate_parts h (.inr (Nat.le_refl _)) (by omega) k (by omega) (by omega)
  · cases h

theorem nextLoop_ok {T : Type} {r : RP T} : ∀ {n i k : Nat}, r.nextLoop n i = .ok k → i < k ∧
    (∀ j, i < j → j < k → ∃ p, r.part j = .ok p ∧ p.active = false) ∧
    (r.validIdx k = .ok false ∨ ∃ p, r.part k = .ok p ∧ p.active = true)
  | 0, i, k, h => by cases h
  | n + 1, i, k, h => by
    rw [RP.nextLoop] at h
    rbind h with v hv
    cases v with
    | false =>
      injection h with h
      subst h
      exact ⟨by omega, fun j _ _ => by omega, .inl hv⟩
    | true =>
      rw [if_pos rfl] at h
      rbind h with p hp
      by_cases ha : p.active = true
      · rw [if_pos ha] at h
        injection h with h
        subst h
        exact ⟨by omega, fun j _ _ => by omega, .inr ⟨p, hp, ha⟩⟩
      · rw [if_neg ha] at h
        obtain ⟨h1, h2, h3⟩ := nextLoop_ok h
        refine ⟨by omega, fun j hj hk => ?_, h3⟩
        by_cases hj' : j = i + 1
        · subst hj'; exact ⟨p, hp, by simpa using ha⟩
        · exact h2 j (by omega) hk

theorem valid_of_begin {T : Type} {r : RP T} {i : Nat} {b : It} (h : r.cbegin i = .ok b) : r.checkValid i = .ok () ∧ i < r.endIdx := by
  rw [RP.cbegin] at h
  rbind h with u hu
  refine ⟨hu, ?_⟩
  rw [RP.checkValid] at hu
  rbind hu with v hv
  rw [RP.validIdx] at hv
  by_contra hh
  rw [if_neg hh] at hv
  injection hv with hv
  subst hv
  cases hu

theorem part_set {T : Type} {r r' : RP T} {i k : Nat} {f : Part T → Part T} (h : r.modify i f = .ok r') :
    ∃ p, r.part i = .ok p ∧ r'.part i = .ok (f p) ∧ r'.endIdx = r.endIdx ∧ (k ≠ i → r'.part k = r.part k) := by
  rw [RP.modify] at h
  rbind h with p hp
  injection h with h
  subst h
  refine ⟨p, hp, ?_, rfl, fun hk => ?_⟩
  · rw [RP.part] at hp ⊢
    cases hi : r.parts[i]? with
    | none => rw [hi] at hp; cases hp
    | some q =>
      rw [hi] at hp
      injection hp with hp
      obtain ⟨hlt, _⟩ := List.getElem?_eq_some_iff.mp hi
      simp only [List.getElem?_set, hlt, if_true]
  · rw [RP.part, RP.part]
    simp only [List.getElem?_set, if_neg (Ne.symm hk)]

/-- What a user of the iterators that activate finds in a region, if more than one region has statements. -/
theorem look_region {r : RP Path} {N i : Nat} {c : Nat → List Nat} (hr : Right r NUM_REGION_TAG (List.range (N + 1)) c)
    (hv : r.validate = .ok ()) (hi : i < 7) (h7 : c 7 ≠ []) :
    (∀ b r' e r'' us, r.mbegin i = .ok (b, r') → r'.mend i = .ok (e, r'') → stmtsBetween b e = .ok us → us = c i) ∧
    (c i ≠ [] → ∃ b r' e r'', r.mbegin i = .ok (b, r') ∧ r'.mend i = .ok (e, r'') ∧ stmtsBetween b e = .ok (c i)) := by
  have both : ∀ k, k < 8 → ∃ p s, k < r.endIdx ∧ r.checkValid k = .ok () ∧ r.part k = .ok p ∧ r.part p.succ = .ok s ∧ r.cbegin k = .ok p.begin ∧ r.cend k = .ok s.begin ∧
      (p.begin == s.begin) = (c k).isEmpty := by
    intro k hk
    have he := hr.empty k hk
    rw [RP.empty] at he
    rbind he with b hb
    rbind he with e he'
    injection he with he
    obtain ⟨v1, v2⟩ := valid_of_begin hb
    have hb' := hb
    have he'' := he'
    rw [RP.cbegin, v1, Res.ok_bind] at hb
    rbind hb with p hp
    rw [RP.cend, v1, Res.ok_bind, hp, Res.ok_bind] at he'
    rbind he' with s hs
    injection hb with hb
    injection he' with he'
    subst hb he'
    exact ⟨p, s, v2, v1, hp, hs, hb', he'', he⟩
  obtain ⟨p, s, hlt, hval, hp, hs, hb, he, hemp⟩ := both i (by omega)
  obtain ⟨hvi, p', hp', hcase⟩ := validate_ok hv hlt
  rw [hp] at hp'
  injection hp' with hp'
  subst hp'
  rcases hcase with ⟨h1, h2⟩ | ⟨hact, _⟩
  · have hnil : c i = [] := by
      rw [h1, hp] at hs
      injection hs with hs
      subst hs
      simpa using hemp
    refine ⟨?_, fun hne => absurd hnil hne⟩
    intro b r' e r'' us g1 g2 g3
    have hoff : p.active = false := by rw [Part.active, h1, h2]; simp
    rw [RP.mbegin, hval, Res.ok_bind] at g1
    rbind g1 with ra hra
    rbind g1 with pa hpa
    injection g1 with g1
    injection g1 with g1 g1'
    subst g1 g1'
    rw [RP.activate, hp, Res.ok_bind, if_neg (by simp [hoff])] at hra
    rbind hra with succ hsucc
    rbind hra with sc hsc
    rbind hra with r1 hr1
    rbind hra with r2 hr2
    rbind hra with sc' hsc'
    rw [RP.nextActive, hp, Res.ok_bind, if_neg (by simp [hoff])] at hsucc
    obtain ⟨n1, n2, n3⟩ := nextLoop_ok hsucc
    obtain ⟨p7, s7, l7, _, q7, u7, _, _, e7⟩ := both 7 (by omega)
    have a7 : p7.active = true := by
      obtain ⟨_, p7', q7', hc7⟩ := validate_ok hv l7
      rw [q7] at q7'
      injection q7' with q7'
      subst q7'
      rcases hc7 with ⟨t1, t2⟩ | ⟨t1, _⟩
      · rw [t1, q7] at u7
        injection u7 with u7
        subst u7
        simp only [beq_self_eq_true] at e7
        exact absurd (List.isEmpty_iff.mp e7.symm) h7
      · exact t1
    have hle : succ ≤ 7 := by
      by_contra hh
      obtain ⟨pp, pp1, pp2⟩ := n2 7 (by omega) (by omega)
      rw [q7] at pp1
      injection pp1 with pp1
      subst pp1
      rw [a7] at pp2
      cases pp2
    have hpred : sc.pred ≠ succ := by
      obtain ⟨v1, ps, v2, v3⟩ := validate_ok hv (k := succ) (by omega)
      rw [hsc] at v2
      injection v2 with v2
      subst v2
      rcases n3 with n3 | ⟨q, n3, n4⟩
      · rw [v1] at n3; cases n3
      · rw [hsc] at n3
        injection n3 with n3
        subst n3
        rcases v3 with ⟨w1, w2⟩ | ⟨_, w⟩
        · rw [Part.active, w1, w2] at n4
          simp at n4
        · exact w
    obtain ⟨pi, y1, y2, y3, y4⟩ := part_set (k := succ) hra
    rw [hpa] at y2
    injection y2 with y2
    have hbeg : pa.begin = sc'.begin := by rw [y2]
    have hsuc : pa.succ = succ := by rw [y2]
    have hon : pa.active = true := by
      rw [y2, Part.active]
      simpa using hpred
    rw [RP.mend] at g2
    rbind g2 with u hu
    rw [RP.activate, hpa, Res.ok_bind, if_pos hon, Res.ok_bind, hpa, Res.ok_bind, hsuc, y4 (by omega), hsc', Res.ok_bind] at g2
    injection g2 with g2
    injection g2 with g2 _
    rw [← g2, hbeg] at g3
    rw [hnil]
    cases hbb : sc'.begin with
    | none => rw [hbb] at g3; injection g3 with g3; exact g3.symm
    | some x =>
      rw [hbb, stmtsBetween, if_pos (Nat.le_refl _)] at g3
      injection g3 with g3
      rw [← g3, Nat.sub_self]
      rfl
  · have m1 : r.mbegin i = .ok (p.begin, r) := by
      rw [RP.mbegin, hval, Res.ok_bind, RP.activate, hp, Res.ok_bind, if_pos hact, Res.ok_bind, hp, Res.ok_bind]
    have m2 : r.mend i = .ok (s.begin, r) := by
      rw [RP.mend, hval, Res.ok_bind, RP.activate, hp, Res.ok_bind, if_pos hact, Res.ok_bind, hp, Res.ok_bind, hs, Res.ok_bind]
    have m3 : stmtsBetween p.begin s.begin = .ok (c i) := by
      by_cases hne : c i = []
      · rw [hne] at hemp ⊢
        have : p.begin = s.begin := by simpa using hemp
        rw [this]
        cases s.begin with
        | none => rfl
        | some x => rw [stmtsBetween, if_pos (Nat.le_refl _), Nat.sub_self]; rfl
      · obtain ⟨b', e', k1, k2, k3⟩ := hr.here i (by show i < 8; omega) hne
        rw [hb] at k1
        rw [he] at k2
        injection k1 with k1
        injection k2 with k2
        subst k1 k2
        exact between_of k3
    refine ⟨?_, fun _ => ⟨_, _, _, _, m1, m2, m3⟩⟩
    intro b r' e r'' us g1 g2 g3
    rw [m1] at g1
    injection g1 with g1
    injection g1 with g1 g1'
    subst g1 g1'
    rw [m2] at g2
    injection g2 with g2
    injection g2 with g2 g2'
    subst g2 g2'
    rw [m3] at g3
    injection g3 with g3
    exact g3.symm

/-! ### The use statements -/

/-- The branches of a parsed procedure that are use statements are single statements. -/
theorem uses_leaves {x : Exts} (hx : x.Forward) (hn : NeedToken x) {r : PR} {s : PState} (hs : Full s) {o : POut}
    (h : PReturns x r s (.ok o)) (ho : o.ok = true) {t : PNode} (ht : o.tree = some t) {n : PNode} (hm : n ∈ nodesOf t)
    (hp : n.tag ∈ procTags) {k : PNode} (hk : k ∈ regionNodes n) (hu : k.tag = Tag.SG_USE_STMT) :
    k ∈ nodesOf t ∧ ∃ j, k.stmt = some j := by
  obtain ⟨hok, hst, p0, e, c3, _, k2, c4⟩ := parsed_shape hx hn hs h ho ht hm hp
  have hL : ∀ r i t, Matched x s.stmts r i t → t = r.rootTag := fun r i t h => C65_leaf_tag h
  obtain ⟨first, spec, exec, int, j, h1, h2, ⟨uses, imports, impl, decls, rfl, hus, hi, ⟨ik, rfl⟩, hd⟩, hex, hin⟩ := k2
  rw [regionNodes, List.mem_flatMap] at hk
  obtain ⟨m, hm1, hm2⟩ := hk
  have hmn := nodes_kids hm1 t hm
  have hme : erase m ∈ eraseAll n.kids := by rw [eraseAll_map]; exact List.mem_map.mpr ⟨m, hm1, rfl⟩
  obtain ⟨firstN, ksN, hkN, hfN, _⟩ := eraseAll_split h1
  have hfirst := c4 firstN (by rw [hfN]; exact h2)
  by_cases hsp : m.tag = Tag.PG_SPECIFICATION_PART
  · rw [if_pos hsp] at hm2
    refine ⟨nodes_kids hm2 t hmn, ?_⟩
    have hke : ∃ l, erase m = .inner Tag.PG_SPECIFICATION_PART l ∧ l = uses ++ (imports ++ ([.inner Tag.PG_IMPLICIT_PART ik] ++ decls)) := by
      rw [h1] at hme
      simp only [List.mem_append, List.mem_cons, List.not_mem_nil, or_false] at hme
      rcases hme with hme | hme | hme | hme | hme
      · exfalso
        rw [← hfN, eraseAll_map, List.mem_map] at hme
        obtain ⟨f, f1, f2⟩ := hme
        rcases hfirst with ⟨rfl, _⟩ | ⟨f', i', rfl, hfs, hft, _⟩
        · cases f1
        · simp only [List.mem_singleton] at f1
          subst f1
          have : m.tag = f.tag := by
            obtain ⟨a1, a2, a3, a4⟩ := f
            simp only [PNode.stmt] at hfs
            subst hfs
            rw [erase] at f2
            exact (erase_leaf f2.symm).1
          rw [this] at hsp
          rw [hsp] at hft
          exact absurd hft (by decide)
      · exact ⟨_, hme, rfl⟩
      · exfalso
        rcases hex with rfl | ⟨l, rfl⟩
        · cases hme
        · simp only [List.mem_singleton] at hme
          have := (erase_inner hme).1
          rw [hsp] at this
          exact absurd this (by decide)
      · exfalso
        rcases hin with rfl | ⟨l, rfl⟩
        · cases hme
        · simp only [List.mem_singleton] at hme
          have := (erase_inner hme).1
          rw [hsp] at this
          exact absurd this (by decide)
      · exfalso
        have := (erase_leaf hme).1
        rw [hsp] at this
        rw [← this] at c3
        exact absurd c3 (by decide)
    obtain ⟨l, e1, e2⟩ := hke
    obtain ⟨_, _, e3⟩ := erase_inner e1
    have hke : erase k ∈ l := by rw [← e3, eraseAll_map]; exact List.mem_map.mpr ⟨k, hm2, rfl⟩
    rw [e2] at hke
    simp only [List.mem_append, List.mem_singleton] at hke
    rcases hke with hke | hke | hke | hke
    · obtain ⟨i, hh⟩ := hus _ hke
      exact ⟨i, (erase_leaf hh).2⟩
    · obtain ⟨i, hh⟩ := hi _ hke
      exact ⟨i, (erase_leaf hh).2⟩
    · have := (erase_inner hke).1
      rw [hu] at this
      exact absurd this (by decide)
    · obtain ⟨l, hh⟩ := hd _ hke
      have := (erase_inner hh).1
      rw [hu] at this
      exact absurd this (by decide)
  · rw [if_neg hsp, List.mem_singleton] at hm2
    subst hm2
    refine ⟨hmn, ?_⟩
    rw [h1] at hme
    simp only [List.mem_append, List.mem_cons, List.not_mem_nil, or_false] at hme
    rcases hme with hme | hme | hme | hme | hme
    · rw [← hfN, eraseAll_map, List.mem_map] at hme
      obtain ⟨f, f1, f2⟩ := hme
      rcases hfirst with ⟨rfl, _⟩ | ⟨f', i', rfl, hfs, hft, _⟩
      · cases f1
      · simp only [List.mem_singleton] at f1
        subst f1
        obtain ⟨a1, a2, a3, a4⟩ := f
        simp only [PNode.stmt] at hfs
        subst hfs
        rw [erase] at f2
        exact ⟨_, (erase_leaf f2.symm).2⟩
    · have := (erase_inner hme).1
      exact absurd this hsp
    · exfalso
      rcases hex with rfl | ⟨l, rfl⟩
      · cases hme
      · simp only [List.mem_singleton] at hme
        have := (erase_inner hme).1
        rw [hu] at this
        exact absurd this (by decide)
    · exfalso
      rcases hin with rfl | ⟨l, rfl⟩
      · cases hme
      · simp only [List.mem_singleton] at hme
        have := (erase_inner hme).1
        rw [hu] at this
        exact absurd this (by decide)
    · exact ⟨_, (erase_leaf hme).2⟩

theorem region_use {t : Int} (h : regionOfTag t = 1) : t = Tag.SG_USE_STMT := by
  rw [regionOfTag] at h
  split at h
  · assumption
  · exfalso
    repeat' split at h
    all_goals omega

theorem useName_of {s' : PState} {j : Nat} {st : LStmt} {n : SNode} {q : Strm} (hst : s'.stmts[j]? = some st)
    (ht : s'.treeOf j = some n) (h : Returns noExts .use_stmt st.strm (.ok (some n, q))) (hg : GoodStmt st.strm) :
    ∃ a, useName s' j = .ok a.lowerText.1 ∧ UsedModule (restOf st.strm) a := by
  obtain ⟨i, a, more, h1, h2, h3⟩ := SP.use_parts SP.goodExts_none hg h
  refine ⟨a, ?_, h3⟩
  rw [useName, stmtTree, hst, ht]
  simp only []
  rw [Res.ok_bind]
  simp only []
  rw [h1, Res.ok_bind, show oneToken (leafAt Tag.TK_NAME i) = .ok i from if_pos rfl, Res.ok_bind, deref_some h2, Res.ok_bind]

end Apps
end FLPR
