import Verif.Procedure.Model
import Verif.Procedure.Spec
import Verif.Regions.PartitionProps
import Verif.Program.TreeLemmas
/-!
# Lemmas for C41
-/

namespace FLPR
namespace Proc
open PP Reg Spec

/-! ### What is recorded -/

/-- The region, the path and the node of one append. -/
abbrev Evt := Nat × Path × PNode

def recordAll : RP Path → List Evt → Res (RP Path)
  | r, [] => .ok r
  | r, e :: es => do
    let r' ← record r e.1 e.2.1 e.2.2
    recordAll r' es

def specEvts (i : Nat) : Nat → List PNode → List Evt
  | _, [] => []
  | j, k :: ks => (regionOfTag k.tag, if k.tag = Tag.PG_IMPLICIT_PART then [i, j] else [i], k) :: specEvts i (j + 1) ks

def evts : Nat → List PNode → List Evt
  | _, [] => []
  | i, k :: ks =>
    (if k.tag = Tag.PG_SPECIFICATION_PART then specEvts i 0 k.kids else [(regionOfTag k.tag, [i], k)]) ++ evts (i + 1) ks

theorem recordAll_append (r : RP Path) (a b : List Evt) : recordAll r (a ++ b) = recordAll r a >>= fun r' => recordAll r' b := by
  induction a generalizing r with
  | nil => rfl
  | cons e a ih =>
    simp only [List.cons_append, recordAll]
    cases h : record r e.1 e.2.1 e.2.2 with
    | error e => rfl
    | ok r' => exact ih r'

theorem evts_append (i : Nat) (a b : List PNode) : evts i (a ++ b) = evts i a ++ evts (i + a.length) b := by
  induction a generalizing i with
  | nil => rfl
  | cons k a ih =>
    simp only [List.cons_append, evts, ih, List.append_assoc, List.length_cons]
    rw [show i + 1 + a.length = i + (a.length + 1) by omega]

theorem specEvts_nodes (i j : Nat) (ks : List PNode) : (specEvts i j ks).map (·.2.2) = ks := by
  induction ks generalizing j with
  | nil => rfl
  | cons k ks ih => simp [specEvts, ih]

theorem specEvts_region (i j : Nat) (ks : List PNode) : ∀ e ∈ specEvts i j ks, e.1 = regionOfTag e.2.2.tag := by
  induction ks generalizing j with
  | nil => simp [specEvts]
  | cons k ks ih =>
    intro e he
    simp only [specEvts, List.mem_cons] at he
    rcases he with rfl | he
    · rfl
    · exact ih _ e he

theorem evts_nodes (t : PNode) (i : Nat) : (evts i t.kids).map (·.2.2) = regionNodes t := by
  rw [regionNodes]
  generalize t.kids = ks
  induction ks generalizing i with
  | nil => rfl
  | cons k ks ih =>
    rw [evts, List.map_append, ih, List.flatMap_cons]
    congr 1
    split
    · exact specEvts_nodes _ _ _
    · rfl

theorem evts_region (i : Nat) (ks : List PNode) : ∀ e ∈ evts i ks, e.1 = regionOfTag e.2.2.tag := by
  induction ks generalizing i with
  | nil => simp [evts]
  | cons k ks ih =>
    intro e he
    rw [evts] at he
    rcases List.mem_append.mp he with he | he
    · split at he
      · exact specEvts_region _ _ _ e he
      · simp only [List.mem_singleton] at he
        subst he; rfl
    · exact ih _ e he

theorem specLoop_eq (i : Nat) : ∀ (ks : List PNode) (j : Nat) (r : RP Path),
    (∀ k ∈ ks, k.tag ∈ [Tag.SG_USE_STMT, Tag.SG_IMPORT_STMT, Tag.PG_IMPLICIT_PART, Tag.PG_DECLARATION_CONSTRUCT]) →
    specLoop i j ks r = recordAll r (specEvts i j ks)
  | [], _, _, _ => rfl
  | k :: ks, j, r, h => by
    have hk := h k (by simp)
    have ih := fun r' => specLoop_eq i ks (j + 1) r' (fun k hk => h k (by simp [hk]))
    simp only [List.mem_cons, List.not_mem_nil, or_false] at hk
    simp only [specEvts, recordAll, specLoop]
    rcases hk with hk | hk | hk | hk <;> rw [hk] <;> simp only [ih] <;> rfl

theorem scan_eq : ∀ (parts : List PNode) (last : PNode) (i : Nat) (r : RP Path),
    (∀ p ∈ parts, (p.tag = Tag.PG_SPECIFICATION_PART ∧ p.kids ≠ [] ∧ p.stmt = none ∧
        (∀ k ∈ p.kids, k.tag ∈ [Tag.SG_USE_STMT, Tag.SG_IMPORT_STMT, Tag.PG_IMPLICIT_PART, Tag.PG_DECLARATION_CONSTRUCT]) ∧
        p.kids.Pairwise (fun a b => ¬ (a.tag = Tag.PG_IMPLICIT_PART ∧ b.tag = Tag.PG_IMPLICIT_PART))) ∨
      p.tag ∈ [Tag.PG_EXECUTION_PART, Tag.PG_INTERNAL_SUBPROGRAM_PART]) →
    last.tag ∈ endTags →
    scan i (parts ++ [last]) r = recordAll r (evts i parts) >>= fun r' => .ok (r', some (i + parts.length, last))
  | [], last, i, r, _, hl => by
    simp only [List.nil_append, scan]
    simp only [endTags, List.mem_cons, List.not_mem_nil, or_false] at hl
    rcases hl with hl | hl | hl | hl <;> rw [hl] <;> rfl
  | p :: parts, last, i, r, h, hl => by
    have ih := fun r' => scan_eq parts last (i + 1) r' (fun p hp => h p (by simp [hp])) hl
    simp only [List.cons_append, scan, evts, recordAll_append, List.length_cons]
    rw [show i + (parts.length + 1) = i + 1 + parts.length by omega]
    rcases h p (by simp) with ⟨h1, h2, _, h3, _⟩ | h1
    · rw [h1, if_pos rfl, if_pos rfl, if_neg (by simpa using h2), specLoop_eq i _ _ _ h3]
      cases recordAll r (specEvts i 0 p.kids) with
      | error e => rfl
      | ok r' => exact ih r'
    · simp only [List.mem_cons, List.not_mem_nil, or_false] at h1
      rcases h1 with h1 | h1
      · rw [h1]
        simp only
        show (record r EXECUTION_PART [i] p >>= _) = ((record r EXECUTION_PART [i] p >>= _) >>= _) >>= _
        cases record r EXECUTION_PART [i] p with
        | error e => rfl
        | ok r' => exact ih r'
      · rw [h1]
        simp only
        show (record r CONTAINED [i] p >>= _) = ((record r CONTAINED [i] p >>= _) >>= _) >>= _
        cases record r CONTAINED [i] p with
        | error e => rfl
        | ok r' => exact ih r'

theorem ingest_eq {t : PNode} (h : IsProc t) (p : Procd) :
    ingest p t = recordAll p.ranges (evts 0 t.kids) >>= fun r => r.validate >>= fun _ =>
      .ok (true, { dirty := false, tag := t.tag, root := some t, ranges := r }) := by
  obtain ⟨first, parts, last, hk, hf, hp, _, hl⟩ := h.branches
  have hkind := h.kind
  simp only [procTags, List.mem_cons, List.not_mem_nil, or_false] at hkind
  have hlast : ∀ i, evts i [last] = [(PROC_END, [i], last)] := by
    intro i
    simp only [List.mem_cons, List.not_mem_nil, or_false] at hl
    rw [evts]
    rcases hl with hl | hl | hl | hl <;> rw [hl] <;> rfl
  have fin : ∀ (w : Res (RP Path)) (j : Nat),
      (w >>= fun r' => (.ok (r', some (j, last)) : Res (RP Path × Option (Nat × PNode)))) >>= (fun s : RP Path × Option (Nat × PNode) =>
        match s.2 with
        | none => (.error .assertion : Res (Bool × Procd))
        | some (i, k) =>
          if k.tag ∈ endTags then do
            let r ← record s.1 PROC_END [i] k
            let _ ← r.validate
            .ok (true, { dirty := false, tag := t.tag, root := some t, ranges := r })
          else .error .assertion) =
      (w >>= fun r' => recordAll r' [(PROC_END, [j], last)]) >>= fun r => r.validate >>= fun _ =>
        .ok (true, { dirty := false, tag := t.tag, root := some t, ranges := r }) := by
    intro w j
    cases w with
    | error e => rfl
    | ok r' =>
      show (if last.tag ∈ endTags then _ else _) = _
      rw [if_pos (show last.tag ∈ endTags from hl)]
      simp only [recordAll]
      show _ = ((record r' PROC_END [j] last >>= _) >>= _)
      cases record r' PROC_END [j] last with
      | error e => rfl
      | ok r'' => rfl
  rw [ingest]
  simp only
  rw [if_pos (by tauto)]
  rcases hf with ⟨rfl, ht⟩ | ⟨f, rfl, f1, f2, f3⟩
  · have hb : beginStmt t p.ranges = .ok (0, parts ++ [last], p.ranges) := by
      rw [beginStmt, hk, List.nil_append]
      have hno : ∀ k ks, parts ++ [last] = k :: ks → k.tag ≠ Tag.SG_PROGRAM_STMT := by
        intro k ks hh
        have : k ∈ parts ++ [last] := by rw [hh]; simp
        rcases List.mem_append.mp this with hm | hm
        · rcases hp k hm with ⟨e, _⟩ | e
          · rw [e]; decide
          · simp only [List.mem_cons, List.not_mem_nil, or_false] at e
            rcases e with e | e <;> rw [e] <;> decide
        · simp only [List.mem_singleton] at hm
          subst hm
          simp only [List.mem_cons, List.not_mem_nil, or_false] at hl
          rcases hl with e | e | e | e <;> rw [e] <;> decide
      cases hh : parts ++ [last] with
      | nil => simp at hh
      | cons k ks => simp only; rw [if_pos ⟨ht, hno k ks hh⟩]
    rw [hb, Res.ok_bind, scan_eq parts last _ _ hp hl, hk, List.nil_append, evts_append, recordAll_append, hlast]
    exact fin _ _
  · have hb : beginStmt t p.ranges = record p.ranges PROC_BEGIN [0] f >>= fun r' => .ok (1, parts ++ [last], r') := by
      rw [beginStmt, hk, List.singleton_append, List.cons_append]
      simp only
      rw [if_neg (fun hh => hh.2 (f3 hh.1)), if_pos (by simp [f1])]
      congr 1
      funext r'
      rw [if_neg (by simp)]
    have hf : evts 0 [f] = [(PROC_BEGIN, [0], f)] := by
      simp only [List.mem_cons, List.not_mem_nil, or_false] at f2
      rw [evts]
      rcases f2 with e | e | e | e <;> rw [e] <;> rfl
    rw [hb, hk, List.append_assoc, evts_append, recordAll_append, hf]
    simp only [recordAll]
    cases record p.ranges PROC_BEGIN [0] f with
    | error e => rfl
    | ok r' =>
      rw [Res.ok_bind, Res.ok_bind, scan_eq parts last _ _ hp hl]
      rw [show (Except.ok r' : Res (RP Path)) >>= (fun r' => Except.ok r') = Except.ok r' from rfl, Res.ok_bind, evts_append,
        recordAll_append, hlast]
      exact fin _ _

/-! ### What the records do -/

theorem setTracker_ok {r : RP Path} {n : Nat} {act : Nat → Prop} {c : Nat → List Nat} {post : List Nat} (h : Links r n act)
    (hb : Begins r n act c post) {i : Nat} (hi : i < n) (t : Path) :
    ∃ r', r.setTracker i t = .ok r' ∧ Links r' n act ∧ Begins r' n act c post := by
  obtain ⟨p, hp, _⟩ := h.ent i (by omega)
  have key : ∀ (k : Nat) (q : Part Path), (r.parts.set i { p with trk := some t })[k]? = some q → ∃ q' : Part Path, r.parts[k]? = some q' ∧ q.begin = q'.begin ∧
      q.pred = q'.pred ∧ q.succ = q'.succ := by
    intro k q hq
    by_cases hk : i = k
    · subst hk
      rw [List.getElem?_set_self (by rw [h.len]; omega)] at hq
      injection hq with hq
      subst hq
      exact ⟨p, hp, rfl, rfl, rfl⟩
    · rw [List.getElem?_set_ne hk] at hq
      exact ⟨q, hq, rfl, rfl, rfl⟩
  refine ⟨{ r with parts := r.parts.set i { p with trk := some t } }, by rw [RP.setTracker, h.checkValid hi, Res.ok_bind, modify_ok _ hp], ⟨h.idx, by simp [h.len], h.small, h.lt, ?_⟩, ?_, hb.off, ?_⟩
  · intro k hk
    obtain ⟨q, hq, he⟩ := h.ent k hk
    by_cases hki : i = k
    · subst hki
      rw [hp] at hq; injection hq with hq; subst hq
      exact ⟨_, List.getElem?_set_self (by rw [h.len]; omega), ⟨fun a b => he.on a b, fun a b => he.off a b, fun a => he.last a⟩⟩
    · exact ⟨q, by rw [List.getElem?_set_ne hki]; exact hq, he⟩
  · intro k q hq ha
    obtain ⟨q', h1, h2, _⟩ := key k q hq
    rw [h2]; exact hb.on k q' h1 ha
  · intro q hq ha
    obtain ⟨q', h1, h2, _⟩ := key n q hq
    rw [h2]; exact hb.last q' h1 ha

/-- The range of a node against what is under it. -/
theorem its_eq {k : PNode} (h : RangeOf k.range (leavesOf k)) {post : List Nat} {b m : Nat} (hp : post ≠ [])
    (hr : stmtsUnder k ++ post = List.range' b m) :
    (stmtsUnder k = [] ∧ (its k).1 = (its k).2) ∨
    (stmtsUnder k ≠ [] ∧ its k = ((stmtsUnder k ++ post).head?, post.head?)) := by
  rcases h with ⟨h1, h2⟩ | ⟨x, y, h1, h2, h3⟩
  · left
    refine ⟨by rw [stmtsUnder, h1]; rfl, ?_⟩
    rw [its]
    cases hr : k.range with
    | none => rfl
    | some w =>
      obtain ⟨u, v⟩ := w
      rw [hr] at h2
      simp [SP.Rng.isEmpty] at h2
      simp [h2]
  · right
    have e1 : stmtsUnder k = List.range' x (y - x) := h3
    refine ⟨by rw [e1]; simp; omega, ?_⟩
    rw [its, h2]
    rw [e1] at hr
    have hlen := congrArg List.length hr
    simp only [List.length_append, List.length_range'] at hlen
    have hpos : 0 < post.length := List.length_pos_iff.mpr hp
    have hx : x = b := by
      have := congrArg (fun l => l[0]?) hr
      beta_reduce at this
      rw [List.getElem?_append_left (by simp; omega), List.getElem?_range' (by omega), List.getElem?_range' (by omega)] at this
      simpa using this
    have hy : post.head? = some y := by
      have := congrArg (fun l => l[y - x]?) hr
      beta_reduce at this
      rw [List.getElem?_append_right (by simp), List.getElem?_range' (by omega)] at this
      simp only [List.length_range', Nat.sub_self] at this
      rw [List.head?_eq_getElem?, this]
      congr 1
      omega
    rw [e1, hy]
    obtain ⟨d, hd⟩ : ∃ d, y - x = d + 1 := ⟨y - x - 1, by omega⟩
    rw [hd]
    rfl

theorem addTo_nil (c : Nat → List Nat) (i : Nat) : addTo c i [] = c := by
  funext k
  rw [addTo]
  split
  · rename_i h; subst h; simp
  · rfl

/-- The regions that got something. -/
def touched (es : List Evt) : List Nat := (es.filter (fun e => !(stmtsUnder e.2.2).isEmpty)).map (·.1)

/-- What region `i` got. -/
def got (es : List Evt) (i : Nat) : List Nat := (es.filter (fun e => e.1 == i)).flatMap (fun e => stmtsUnder e.2.2)

theorem recordAll_ok {n : Nat} : ∀ (es : List Evt) (r : RP Path) (seen : List Nat) (c : Nat → List Nat) (post : List Nat) (b m : Nat),
    Links r n (· ∈ seen) → Begins r n (· ∈ seen) c (es.flatMap (fun e => stmtsUnder e.2.2) ++ post) →
    es.flatMap (fun e => stmtsUnder e.2.2) ++ post = List.range' b m → post ≠ [] →
    (∀ e ∈ es, e.1 < n ∧ RangeOf e.2.2.range (leavesOf e.2.2)) →
    (∀ a ∈ seen, ∀ e ∈ es, a ≤ e.1) → (es.map (·.1)).Pairwise (· ≤ ·) →
    ∃ r', recordAll r es = .ok r' ∧ Links r' n (· ∈ seen ++ touched es) ∧
      Begins r' n (· ∈ seen ++ touched es) (fun k => c k ++ got es k) post
  | [], r, seen, c, post, b, m, h, hb, _, _, _, _, _ => by
    refine ⟨r, rfl, by simpa [touched] using h, ?_⟩
    simpa [touched, got] using hb
  | e :: es, r, seen, c, post, b, m, h, hb, hr, hp, he, hs, ho => by
    obtain ⟨he1, he2⟩ := he e (by simp)
    rw [List.flatMap_cons, List.append_assoc] at hb hr
    have hpost : es.flatMap (fun e => stmtsUnder e.2.2) ++ post ≠ [] := by simp [hp]
    obtain ⟨r1, s1, s2, s3⟩ := setTracker_ok h hb he1 e.2.1
    have hnd : (stmtsUnder e.2.2 ++ (es.flatMap (fun e => stmtsUnder e.2.2) ++ post)).Nodup := by
      rw [hr]; exact List.nodup_range'
    have ho' := List.pairwise_cons.mp ho
    rcases its_eq he2 hpost hr with ⟨i1, i2⟩ | ⟨i1, i2⟩
    · have hrec : record r e.1 e.2.1 e.2.2 = .ok r1 := by
        rw [record, s1, Res.ok_bind, RP.append, s2.checkValid he1, Res.ok_bind, if_pos i2]
      rw [i1, List.nil_append] at s3 hr
      obtain ⟨r', a1, a2, a3⟩ := recordAll_ok es r1 seen c post b m s2 s3 hr hp (fun e he' => he e (by simp [he']))
        (fun a ha e he' => hs a ha e (by simp [he'])) ho'.2
      have ht : touched (e :: es) = touched es := by simp [touched, i1]
      refine ⟨r', by rw [recordAll, hrec]; exact a1, by rw [ht]; exact a2, ?_⟩
      rw [ht]
      refine a3.ext (fun k => ?_)
      congr 1
      rw [got, List.filter_cons]
      split
      · rw [List.flatMap_cons, i1]; rfl
      · rfl
    · obtain ⟨r2, t1, t2, t3⟩ := append_ok s2 s3 he1 i1 hpost hnd (fun a ha => hs a ha e (by simp))
      have hrec : record r e.1 e.2.1 e.2.2 = .ok r2 := by
        rw [record, s1, Res.ok_bind, i2]; exact t1
      have hact : (fun k => k ∈ seen ∨ k = e.1) = (· ∈ seen ++ [e.1]) := by
        funext k; apply propext; simp
      rw [hact] at t2 t3
      have hr' : es.flatMap (fun e => stmtsUnder e.2.2) ++ post = List.range' (b + (stmtsUnder e.2.2).length) (m - (stmtsUnder e.2.2).length) := by
        have := congrArg (List.drop (stmtsUnder e.2.2).length) hr
        rw [List.drop_left, List.drop_range'] at this
        simpa using this
      obtain ⟨r', a1, a2, a3⟩ := recordAll_ok es r2 (seen ++ [e.1]) _ post _ _ t2 t3 hr' hp (fun e he' => he e (by simp [he']))
        (by
          intro a ha f hf
          rcases List.mem_append.mp ha with ha | ha
          · exact hs a ha f (by simp [hf])
          · simp only [List.mem_singleton] at ha
            subst ha
            exact ho'.1 f.1 (List.mem_map.mpr ⟨f, hf, rfl⟩)) ho'.2
      have ht : seen ++ [e.1] ++ touched es = seen ++ touched (e :: es) := by
        simp [touched, i1]
      rw [ht] at a2 a3
      refine ⟨r', by rw [recordAll, hrec]; exact a1, a2, a3.ext (fun k => ?_)⟩
      rw [got, List.filter_cons, addTo]
      by_cases hk : k = e.1
      · subst hk
        rw [if_pos rfl, if_pos (by simp), List.flatMap_cons, ← List.append_assoc]
        rfl
      · rw [if_neg hk, if_neg (by simpa using fun hh => hk hh.symm)]
        rfl

/-! ### The trackers -/

/-- The tracker of region `k`. -/
def trkOf (r : RP Path) (k : Nat) : Option (Option Path) := (r.parts[k]?).map (·.trk)

theorem modify_trk {r r' : RP Path} {i : Nat} {f : Part Path → Part Path}
    (h : r.modify i f = .ok r') (hf : ∀ q, (f q).trk = q.trk) : ∀ k, trkOf r' k = trkOf r k := by
  rw [RP.modify, RP.part] at h
  cases hp : r.parts[i]? with
  | none => rw [hp] at h; cases h
  | some p =>
    rw [hp] at h
    injection h with h
    subst h
    intro k
    rw [trkOf, trkOf]
    simp only
    by_cases hk : i = k
    · subst hk
      have : i < r.parts.length := by
        by_contra hc
        rw [List.getElem?_eq_none (by omega)] at hp
        cases hp
      rw [List.getElem?_set_self this, hp]
      simp [hf]
    · rw [List.getElem?_set_ne hk]

theorem activate_trk {r r' : RP Path} {i : Nat} (h : r.activate i = .ok r') : ∀ k, trkOf r' k = trkOf r k := by
  rw [RP.activate] at h
  rbind h with p hp
  by_cases ha : p.active
  · rw [if_pos ha] at h
    injection h with h
    subst h
    intro k; rfl
  · rw [if_neg ha] at h
    rbind h with s hs
    rbind h with q hq
    rbind h with r1 h1
    rbind h with r2 h2
    rbind h with q2 hq2
    intro k
    rw [modify_trk h (fun _ => rfl) k, modify_trk h2 (fun _ => rfl) k, modify_trk h1 (fun _ => rfl) k]

theorem append_trk {r r' : RP Path} {i : Nat} {b e : It} (h : r.append i b e = .ok r') : ∀ k, trkOf r' k = trkOf r k := by
  rw [RP.append] at h
  rbind h with u hu
  by_cases hbe : b = e
  · rw [if_pos hbe] at h
    injection h with h
    subst h
    intro k; rfl
  · rw [if_neg hbe] at h
    rbind h with em hem
    rbind h with en hen
    split at h
    · rbind h with l hl
      split at h
      · rbind h with r1 h1
        rbind h with r2 h2
        intro k
        rw [RP.setBack] at h
        rw [modify_trk h (fun _ => rfl) k, modify_trk h2 (fun _ => rfl) k, activate_trk h1 k]
      · split at h
        · intro k
          rw [RP.setBack] at h
          rw [modify_trk h (fun _ => rfl) k]
        · cases h
    · cases h

theorem setTracker_trk {r r' : RP Path} {i : Nat} {t : Path} (h : r.setTracker i t = .ok r') :
    ∀ k, trkOf r' k = if k = i then some (some t) else trkOf r k := by
  rw [RP.setTracker] at h
  rbind h with u hu
  rw [RP.modify, RP.part] at h
  cases hp : r.parts[i]? with
  | none => rw [hp] at h; cases h
  | some p =>
    rw [hp] at h
    injection h with h
    subst h
    intro k
    rw [trkOf, trkOf]
    simp only
    by_cases hk : k = i
    · subst hk
      have : k < r.parts.length := by
        by_contra hc
        rw [List.getElem?_eq_none (by omega)] at hp
        cases hp
      rw [List.getElem?_set_self this, if_pos rfl]
      rfl
    · rw [List.getElem?_set_ne (fun hh => hk hh.symm), if_neg hk]

theorem recordAll_trk : ∀ (es : List Evt) (r r' : RP Path), recordAll r es = .ok r' → ∀ k,
    (∃ e ∈ es, e.1 = k ∧ trkOf r' k = some (some e.2.1)) ∨ ((∀ e ∈ es, e.1 ≠ k) ∧ trkOf r' k = trkOf r k)
  | [], r, r', h, k => by
    injection h with h
    subst h
    exact .inr ⟨by simp, rfl⟩
  | e :: es, r, r', h, k => by
    rw [recordAll] at h
    rbind h with r1 h1
    rw [record] at h1
    rbind h1 with r0 h0
    have hk : trkOf r1 k = if k = e.1 then some (some e.2.1) else trkOf r k := by
      rw [append_trk h1 k, setTracker_trk h0 k]
    rcases recordAll_trk es r1 r' h k with ⟨f, hf, f1, f2⟩ | ⟨g1, g2⟩
    · exact .inl ⟨f, by simp [hf], f1, f2⟩
    · by_cases hh : k = e.1
      · rw [if_pos hh] at hk
        exact .inl ⟨e, by simp, hh.symm, by rw [g2, hk]⟩
      · rw [if_neg hh] at hk
        refine .inr ⟨?_, by rw [g2, hk]⟩
        intro f hf
        rcases List.mem_cons.mp hf with rfl | hf
        · exact fun e => hh e.symm
        · exact g1 f hf

/-! ### The nodes the trackers are at -/

/-- Where an append comes from. -/
theorem specEvts_from (i : Nat) : ∀ (ks : List PNode) (j : Nat), ∀ e ∈ specEvts i j ks,
    ∃ d k, ks[d]? = some k ∧ e = (regionOfTag k.tag, if k.tag = Tag.PG_IMPLICIT_PART then [i, j + d] else [i], k)
  | [], _, e, he => by simp [specEvts] at he
  | k :: ks, j, e, he => by
    simp only [specEvts, List.mem_cons] at he
    rcases he with rfl | he
    · exact ⟨0, k, rfl, rfl⟩
    · obtain ⟨d, k', h1, h2⟩ := specEvts_from i ks (j + 1) e he
      exact ⟨d + 1, k', h1, by rw [h2, show j + 1 + d = j + (d + 1) by omega]⟩

theorem evts_from : ∀ (ks : List PNode) (i : Nat), ∀ e ∈ evts i ks,
    ∃ d k, ks[d]? = some k ∧
      ((k.tag ≠ Tag.PG_SPECIFICATION_PART ∧ e = (regionOfTag k.tag, [i + d], k)) ∨
       (k.tag = Tag.PG_SPECIFICATION_PART ∧ ∃ j c, k.kids[j]? = some c ∧
        e = (regionOfTag c.tag, if c.tag = Tag.PG_IMPLICIT_PART then [i + d, j] else [i + d], c)))
  | [], _, e, he => by simp [evts] at he
  | k :: ks, i, e, he => by
    rw [evts] at he
    rcases List.mem_append.mp he with he | he
    · refine ⟨0, k, rfl, ?_⟩
      split at he
      · rename_i hk
        right
        obtain ⟨d, c, h1, h2⟩ := specEvts_from _ _ _ e he
        exact ⟨hk, d, c, h1, by rw [h2]; simp⟩
      · rename_i hk
        simp only [List.mem_singleton] at he
        exact .inl ⟨hk, he⟩
    · obtain ⟨d, k', h1, h2⟩ := evts_from ks (i + 1) e he
      refine ⟨d + 1, k', h1, ?_⟩
      rw [show i + (d + 1) = i + 1 + d by omega]
      exact h2

/-- The tags of the branches. -/
theorem kid_tag {t : PNode} (h : ProcBranches t) {a : PNode} (ha : a ∈ t.kids) :
    (a.tag ∈ [Tag.SG_FUNCTION_STMT, Tag.SG_SUBROUTINE_STMT, Tag.SG_PROGRAM_STMT, Tag.SG_MP_SUBPROGRAM_STMT] ∧ t.kids[0]? = some a) ∨
    (a.tag = Tag.PG_SPECIFICATION_PART ∧ a.stmt = none ∧
      (∀ k ∈ a.kids, k.tag ∈ [Tag.SG_USE_STMT, Tag.SG_IMPORT_STMT, Tag.PG_IMPLICIT_PART, Tag.PG_DECLARATION_CONSTRUCT]) ∧
      a.kids.Pairwise (fun a b => ¬ (a.tag = Tag.PG_IMPLICIT_PART ∧ b.tag = Tag.PG_IMPLICIT_PART))) ∨
    a.tag = Tag.PG_EXECUTION_PART ∨ a.tag = Tag.PG_INTERNAL_SUBPROGRAM_PART ∨
    (a.tag ∈ endTags ∧ t.kids.getLast? = some a) := by
  obtain ⟨first, parts, last, hk, hf, hp, _, hl⟩ := h
  rw [hk] at ha ⊢
  simp only [List.mem_append, List.mem_singleton] at ha
  rcases ha with (ha | ha) | ha
  · left
    rcases hf with ⟨rfl, _⟩ | ⟨f, rfl, _, f2, _⟩
    · cases ha
    · simp only [List.mem_singleton] at ha
      subst ha
      exact ⟨f2, rfl⟩
  · rcases hp a ha with ⟨h1, _, h2, h3, h4⟩ | h1
    · exact .inr (.inl ⟨h1, h2, h3, h4⟩)
    · simp only [List.mem_cons, List.not_mem_nil, or_false] at h1
      rcases h1 with h1 | h1
      · exact .inr (.inr (.inl h1))
      · exact .inr (.inr (.inr (.inl h1)))
  · subst ha
    exact .inr (.inr (.inr (.inr ⟨hl, by simp⟩)))

theorem tags_nodup {t : PNode} (h : ProcBranches t) : (t.kids.map (·.tag)).Nodup := by
  obtain ⟨first, parts, last, hk, hf, hp, hn, hl⟩ := h
  have hpt : ∀ p ∈ parts, p.tag ∈ [Tag.PG_SPECIFICATION_PART, Tag.PG_EXECUTION_PART, Tag.PG_INTERNAL_SUBPROGRAM_PART] := by
    intro p hpm
    rcases hp p hpm with ⟨h1, _⟩ | h1
    · simp [h1]
    · exact List.mem_cons_of_mem _ h1
  have hdis : ∀ x ∈ [Tag.PG_SPECIFICATION_PART, Tag.PG_EXECUTION_PART, Tag.PG_INTERNAL_SUBPROGRAM_PART],
      x ∉ endTags ∧ x ∉ [Tag.SG_FUNCTION_STMT, Tag.SG_SUBROUTINE_STMT, Tag.SG_PROGRAM_STMT, Tag.SG_MP_SUBPROGRAM_STMT] := by decide
  have hdis2 : ∀ x ∈ [Tag.SG_FUNCTION_STMT, Tag.SG_SUBROUTINE_STMT, Tag.SG_PROGRAM_STMT, Tag.SG_MP_SUBPROGRAM_STMT], x ∉ endTags := by decide
  have h1 : (parts.map (·.tag) ++ [last.tag]).Nodup := by
    rw [List.nodup_append]
    refine ⟨hn, by simp, ?_⟩
    rintro a ha b hb rfl
    obtain ⟨p, hp1, rfl⟩ := List.mem_map.mp ha
    simp only [List.mem_singleton] at hb
    exact (hdis _ (hpt p hp1)).1 (by rw [hb]; exact hl)
  rw [hk, List.append_assoc, List.map_append, List.map_append]
  rcases hf with ⟨rfl, _⟩ | ⟨f, rfl, _, f2, _⟩
  · exact h1
  · rw [List.nodup_append]
    refine ⟨by simp, h1, ?_⟩
    rintro a ha b hb rfl
    simp only [List.map_cons, List.map_nil, List.mem_singleton] at ha
    subst ha
    rcases List.mem_append.mp hb with hb | hb
    · obtain ⟨p, hp1, hp2⟩ := List.mem_map.mp hb
      exact (hdis _ (hpt p hp1)).2 (by rw [hp2]; exact f2)
    · simp only [List.map_cons, List.map_nil, List.mem_singleton] at hb
      exact hdis2 _ f2 (by rw [hb]; exact hl)

theorem kid_index {t : PNode} (h : ProcBranches t) {i j : Nat} {a b : PNode} (ha : t.kids[i]? = some a)
    (hb : t.kids[j]? = some b) (hab : a.tag = b.tag) : i = j := by
  have hn := tags_nodup h
  have hi : i < t.kids.length := (List.getElem?_eq_some_iff.mp ha).1
  refine (List.getElem?_inj (by simpa using hi) hn).mp ?_
  rw [List.getElem?_map, List.getElem?_map, ha, hb]
  simp [hab]

theorem region_of_kid {t : PNode} (h : ProcBranches t) {a b : PNode} (ha : a ∈ t.kids) (hb : b ∈ t.kids)
    (na : a.tag ≠ Tag.PG_SPECIFICATION_PART) (nb : b.tag ≠ Tag.PG_SPECIFICATION_PART)
    (hr : regionOfTag a.tag = regionOfTag b.tag) : a.tag = b.tag := by
  have hf : ∀ x ∈ [Tag.SG_FUNCTION_STMT, Tag.SG_SUBROUTINE_STMT, Tag.SG_PROGRAM_STMT, Tag.SG_MP_SUBPROGRAM_STMT], regionOfTag x = 0 := by decide
  have he : ∀ x ∈ endTags, regionOfTag x = 7 := by decide
  have h5 : regionOfTag Tag.PG_EXECUTION_PART = 5 := by decide
  have h6 : regionOfTag Tag.PG_INTERNAL_SUBPROGRAM_PART = 6 := by decide
  rcases kid_tag h ha with ⟨a1, a2⟩ | ⟨a1, _⟩ | a1 | a1 | ⟨a1, a2⟩ <;>
  rcases kid_tag h hb with ⟨b1, b2⟩ | ⟨b1, _⟩ | b1 | b1 | ⟨b1, b2⟩ <;>
  first
    | exact absurd a1 na
    | exact absurd b1 nb
    | (rw [a2] at b2; injection b2 with b2; rw [b2])
    | (rw [a1, b1]; done)
    | (exfalso; simp only [hf _ a1, he _ b1] at hr; omega)
    | (exfalso; simp only [he _ a1, hf _ b1] at hr; omega)
    | (exfalso; rw [hf _ a1, b1] at hr; revert hr; decide)
    | (exfalso; rw [he _ a1, b1] at hr; revert hr; decide)
    | (exfalso; rw [a1, hf _ b1] at hr; revert hr; decide)
    | (exfalso; rw [a1, he _ b1] at hr; revert hr; decide)
    | (exfalso; rw [a1, b1] at hr; revert hr; decide)

/-- Appends to the same region are made with the same cursor. -/
theorem evts_path {t : PNode} (h : ProcBranches t) {e f : Evt} (he : e ∈ evts 0 t.kids) (hf : f ∈ evts 0 t.kids)
    (hr : e.1 = f.1) : e.2.1 = f.2.1 := by
  have hs : ∀ x ∈ [Tag.SG_USE_STMT, Tag.SG_IMPORT_STMT, Tag.PG_IMPLICIT_PART, Tag.PG_DECLARATION_CONSTRUCT],
      1 ≤ regionOfTag x ∧ regionOfTag x ≤ 4 ∧ (regionOfTag x = 3 ↔ x = Tag.PG_IMPLICIT_PART) := by decide
  have hno : ∀ a ∈ t.kids, a.tag ≠ Tag.PG_SPECIFICATION_PART → regionOfTag a.tag = 0 ∨ 5 ≤ regionOfTag a.tag := by
    intro a ha na
    have hf : ∀ x ∈ [Tag.SG_FUNCTION_STMT, Tag.SG_SUBROUTINE_STMT, Tag.SG_PROGRAM_STMT, Tag.SG_MP_SUBPROGRAM_STMT], regionOfTag x = 0 := by decide
    have he : ∀ x ∈ endTags, regionOfTag x = 7 := by decide
    rcases kid_tag h ha with ⟨a1, _⟩ | ⟨a1, _⟩ | a1 | a1 | ⟨a1, _⟩
    · exact .inl (hf _ a1)
    · exact absurd a1 na
    · rw [a1]; decide
    · rw [a1]; decide
    · right; rw [he _ a1]; decide
  have hspec : ∀ a ∈ t.kids, a.tag = Tag.PG_SPECIFICATION_PART →
      (∀ k ∈ a.kids, k.tag ∈ [Tag.SG_USE_STMT, Tag.SG_IMPORT_STMT, Tag.PG_IMPLICIT_PART, Tag.PG_DECLARATION_CONSTRUCT]) ∧
      a.kids.Pairwise (fun a b => ¬ (a.tag = Tag.PG_IMPLICIT_PART ∧ b.tag = Tag.PG_IMPLICIT_PART)) := by
    intro a ha na
    have hf : ∀ x ∈ [Tag.SG_FUNCTION_STMT, Tag.SG_SUBROUTINE_STMT, Tag.SG_PROGRAM_STMT, Tag.SG_MP_SUBPROGRAM_STMT], x ≠ Tag.PG_SPECIFICATION_PART := by decide
    have he : ∀ x ∈ endTags, x ≠ Tag.PG_SPECIFICATION_PART := by decide
    rcases kid_tag h ha with ⟨a1, _⟩ | ⟨a1, _, a2⟩ | a1 | a1 | ⟨a1, _⟩
    · exact absurd na (hf _ a1)
    · exact a2
    · rw [a1] at na; exact absurd na (by decide)
    · rw [a1] at na; exact absurd na (by decide)
    · exact absurd na (he _ a1)
  obtain ⟨d, k, hk, hd⟩ := evts_from _ _ e he
  obtain ⟨d', k', hk', hd'⟩ := evts_from _ _ f hf
  have mk := List.mem_of_getElem? hk
  have mk' := List.mem_of_getElem? hk'
  rcases hd with ⟨n1, rfl⟩ | ⟨n1, j, c, hc, rfl⟩ <;> rcases hd' with ⟨n2, rfl⟩ | ⟨n2, j', c', hc', rfl⟩
  · have := kid_index h hk hk' (region_of_kid h mk mk' n1 n2 hr)
    subst this; rfl
  · exfalso
    have := hs _ ((hspec k' mk' n2).1 c' (List.mem_of_getElem? hc'))
    have := hno k mk n1
    simp only at hr
    omega
  · exfalso
    have := hs _ ((hspec k mk n1).1 c (List.mem_of_getElem? hc))
    have := hno k' mk' n2
    simp only at hr
    omega
  · have := kid_index h hk hk' (by rw [n1, n2])
    subst this
    rw [hk] at hk'; injection hk' with hk'; subst hk'
    have s1 := hs _ ((hspec k mk n1).1 c (List.mem_of_getElem? hc))
    have s2 := hs _ ((hspec k mk n1).1 c' (List.mem_of_getElem? hc'))
    simp only at hr ⊢
    by_cases hi : c.tag = Tag.PG_IMPLICIT_PART
    · have hi' : c'.tag = Tag.PG_IMPLICIT_PART := s2.2.2.mp (by rw [← hr]; exact s1.2.2.mpr hi)
      rw [if_pos hi, if_pos hi']
      have hp := List.pairwise_iff_getElem.mp (hspec k mk n1).2
      obtain ⟨l1, g1⟩ := List.getElem?_eq_some_iff.mp hc
      obtain ⟨l2, g2⟩ := List.getElem?_eq_some_iff.mp hc'
      have : j = j' := by
        by_contra hne
        rcases Nat.lt_or_gt_of_ne hne with hlt | hlt
        · exact hp j j' l1 l2 hlt ⟨by rw [g1]; exact hi, by rw [g2]; exact hi'⟩
        · exact hp j' j l2 l1 hlt ⟨by rw [g2]; exact hi', by rw [g1]; exact hi⟩
      rw [this]
    · have hi' : ¬ c'.tag = Tag.PG_IMPLICIT_PART := fun hh => hi (s1.2.2.mp (by rw [hr]; exact s2.2.2.mpr hh))
      rw [if_neg hi, if_neg hi']

/-- The cursor of an append is at a node with the statements of the append. -/
theorem evts_node {t : PNode} (h : ProcBranches t) {e : Evt} (he : e ∈ evts 0 t.kids) :
    ∃ n, nodeAt t e.2.1 = some n ∧ ∀ x ∈ stmtsUnder e.2.2, x ∈ stmtsUnder n := by
  obtain ⟨d, k, hk, hd⟩ := evts_from _ _ e he
  rcases hd with ⟨_, rfl⟩ | ⟨n1, j, c, hc, rfl⟩
  · exact ⟨k, by simp [nodeAt, hk], fun x hx => hx⟩
  · simp only
    split
    · exact ⟨c, by simp [nodeAt, hk, hc], fun x hx => hx⟩
    · refine ⟨k, by simp [nodeAt, hk], fun x hx => ?_⟩
      rw [stmtsUnder, mem_squash] at hx ⊢
      have hst : k.stmt = none := by
        have hf : ∀ x ∈ [Tag.SG_FUNCTION_STMT, Tag.SG_SUBROUTINE_STMT, Tag.SG_PROGRAM_STMT, Tag.SG_MP_SUBPROGRAM_STMT], x ≠ Tag.PG_SPECIFICATION_PART := by decide
        have he : ∀ x ∈ endTags, x ≠ Tag.PG_SPECIFICATION_PART := by decide
        rcases kid_tag h (List.mem_of_getElem? hk) with ⟨a1, _⟩ | ⟨_, a2, _⟩ | a1 | a1 | ⟨a1, _⟩
        · exact absurd n1 (hf _ a1)
        · exact a2
        · rw [a1] at n1; exact absurd n1 (by decide)
        · rw [a1] at n1; exact absurd n1 (by decide)
        · exact absurd n1 (he _ a1)
      have hall : ∀ (ks : List PNode), c ∈ ks → x ∈ stmtsOfAll ks := by
        intro ks
        induction ks with
        | nil => intro hm; cases hm
        | cons a ks ih =>
          intro hm
          rw [stmtsOfAll, List.mem_append]
          rcases List.mem_cons.mp hm with rfl | hm
          · exact .inl hx
          · exact .inr (ih hm)
      have hm := List.mem_of_getElem? hc
      cases k with
      | node a b i ks =>
        simp only [PNode.stmt] at hst
        subst hst
        rw [leavesOf]
        exact hall _ hm

end Proc
end FLPR
