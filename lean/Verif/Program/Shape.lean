import Verif.Program.ShapeSpec
import Verif.Program.Inv
/-!
# Lemmas for C65
-/

namespace FLPR
namespace PP
open Spec
open SP (R SNode Rng Strm PRes PFail up up_ok)

theorem eraseAll_append (a b : List PNode) : eraseAll (a ++ b) = eraseAll a ++ eraseAll b := by
  induction a with
  | nil => rfl
  | cons x a ih => simp [eraseAll, ih]

theorem eraseAll_map (a : List PNode) : eraseAll a = a.map erase := by
  induction a with
  | nil => rfl
  | cons x a ih => simp [eraseAll, ih]

/-- A node for `tag` with the branches `f` so far. -/
def Holds (a : PNode) (tag : Int) (f : List Sh) : Prop := a.tag = tag ∧ a.stmt = none ∧ eraseAll a.kids = f

theorem Holds.new (tag : Int) (r : Rng) : Holds (.node tag r none []) tag [] := ⟨rfl, rfl, rfl⟩

theorem Holds.hoist {a d : PNode} {tag : Int} {f : List Sh} (h : Holds a tag f) :
    Holds (hoistBack a d) tag (f ++ branchesOf (some d)) := by
  obtain ⟨t, r, i, ks⟩ := a
  obtain ⟨dt, dr, di, dks⟩ := d
  obtain ⟨h1, h2, h3⟩ := h
  simp only [PNode.tag, PNode.stmt, PNode.kids] at h1 h2 h3
  subst h1 h2 h3
  by_cases hd : dt = Tag.HOIST
  · subst hd
    simp [hoistBack, Holds, branchesOf, PNode.tag, PNode.stmt, PNode.kids, eraseAll_append]
  · simp [hoistBack, Holds, branchesOf, PNode.tag, PNode.stmt, PNode.kids, eraseAll_append, hd, eraseAll]

theorem Holds.attach {a : PNode} {tag : Int} {f : List Sh} (h : Holds a tag f) (o : Option PNode) :
    Holds (attachTree a o) tag (f ++ branchesOf o) := by
  cases o with
  | none => simpa [attachTree, branchesOf] using h
  | some d => exact h.hoist

theorem cover_same {a n : PNode} (h : coverBranches a = .ok n) : n.tag = a.tag ∧ n.stmt = a.stmt ∧ n.kids = a.kids := by
  obtain ⟨t, r, i, ks⟩ := a
  cases i with
  | some i => injection h with h; subst h; exact ⟨rfl, rfl, rfl⟩
  | none =>
    simp only [coverBranches] at h
    rbind h with r' hr
    injection h with h; subst h; exact ⟨rfl, rfl, rfl⟩

theorem Holds.cover {a n : PNode} {tag : Int} {f : List Sh} (h : Holds a tag f) (hc : coverBranches a = .ok n) : Holds n tag f := by
  obtain ⟨c1, c2, c3⟩ := cover_same hc
  exact ⟨c1.trans h.1, c2.trans h.2.1, by rw [c3]; exact h.2.2⟩

theorem Holds.branches {a : PNode} {tag : Int} {f : List Sh} (h : Holds a tag f) : branchesOf (some a) = under tag f := by
  obtain ⟨t, r, i, ks⟩ := a
  obtain ⟨h1, h2, h3⟩ := h
  simp only [PNode.tag, PNode.stmt, PNode.kids] at h1 h2 h3
  subst h1 h2 h3
  by_cases ht : t = Tag.HOIST <;> simp [branchesOf, under, PNode.tag, PNode.kids, erase, ht]

theorem recover_branches {a n : PNode} (h : coverBranches a = .ok n) : branchesOf (some n) = branchesOf (some a) := by
  obtain ⟨c1, c2, c3⟩ := cover_same h
  obtain ⟨t, r, i, ks⟩ := a
  obtain ⟨t', r', i', ks'⟩ := n
  simp only [PNode.tag, PNode.stmt, PNode.kids] at c1 c2 c3
  subst c1 c2 c3
  by_cases ht : t' = Tag.HOIST <;> cases i' <;> simp [branchesOf, PNode.tag, PNode.kids, erase, ht]

theorem leaf_branches {tag : Int} {r : Rng} {i : Nat} {ks : List PNode} (h : tag ≠ Tag.HOIST) :
    branchesOf (some (.node tag r (some i) ks)) = [.leaf i tag] := by
  simp [branchesOf, PNode.tag, h, erase]

section
variable {f : T → PState → PRes POut} {c : R → Bool} {L : R → Nat → Int → Prop} {g : PR → PBody} {l : List LStmt} {sp : StmtP}

/-- The results of the inner parsers are derivations. -/
def Conf (c : R → Bool) (L : R → Nat → Int → Prop) (g : PR → PBody) (l : List LStmt) (f : T → PState → PRes POut) : Prop :=
  ∀ p s o, p.only c = true → s.stmts = l → f p s = .ok o → o.ok = true → Derives L g p (branchesOf o.tree)

/-- What the statement parsers say about the statements. -/
structure Says (L : R → Nat → Int → Prop) (l : List LStmt) (sp : StmtP) : Prop where
  yes : ∀ r (s : PState) (st : LStmt) (t : SNode) q, s.stmts = l → s.cur = .ok st → sp r st.strm = .ok (some t, q) → L r s.pos t.tag
  back : ∀ s q, sp .end_do s = .ok (none, q) → q = s

/-- The inner parsers match when they are sure to. -/
def SureOk (g : PR → PBody) (f : T → PState → PRes POut) : Prop := ∀ p s o, Sure g p → f p s = .ok o → o.ok = true

theorem seq_sure (hf : SureOk g f) : ∀ ps s acc r, (∀ p ∈ ps, Sure g p) → seqLoop f ps s acc = .ok r → r.2.1 = true
  | [], s, acc, r, _, h => by
    simp only [seqLoop] at h
    injection h with h; subst h; rfl
  | p :: ps, s, acc, r, hp, h => by
    simp only [seqLoop] at h
    pbind h with o ho
    rw [if_pos (hf p s o (hp p (by simp)) ho)] at h
    exact seq_sure hf ps _ _ r (fun p hp' => hp p (by simp [hp'])) h

theorem step_sure (hf : SureOk g f) (k : Nat) : SureOk g (step sp g f k) := by
  intro p s o hp h
  cases hp with
  | star =>
    simp only [step] at h
    pbind h with r hr
    pbind h with n hn
    injection h with h; subst h; rfl
  | opt =>
    simp only [step] at h
    pbind h with q hq
    cases ht : q.tree with
    | none => rw [ht] at h; injection h with h; subst h; rfl
    | some t =>
      rw [ht] at h
      simp only at h
      pbind h with n hn
      injection h with h; subst h; rfl
  | optSeq =>
    simp only [step] at h
    pbind h with r hr
    pbind h with n hn
    injection h with h; subst h; rfl
  | tagIf hp =>
    simp only [step] at h
    pbind h with q hq
    have hq := hf _ _ _ hp hq
    cases ht : q.tree with
    | none => rw [ht] at h; injection h with h; subst h; exact hq
    | some t =>
      rw [ht] at h
      simp only at h
      pbind h with n hn
      injection h with h; subst h; exact hq
  | seq hp =>
    simp only [step] at h
    pbind h with r hr
    rw [if_pos (seq_sure hf _ _ _ _ hp hr)] at h
    pbind h with n hn
    injection h with h; subst h; rfl
  | comb hr hp =>
    simp only [step, hr, runBody] at h
    exact hf _ _ _ hp h

/-- The inner parsers have a tree when they should. -/
def BareOk (g : PR → PBody) (f : T → PState → PRes POut) : Prop := ∀ p s o, f p s = .ok o → o.ok = true → o.tree = none → Bare g p

theorem step_bare (hf : BareOk g f) (k : Nat) : BareOk g (step sp g f k) := by
  intro p s o h ho ht
  cases p with
  | alts tag ps =>
    simp only [step] at h
    pbind h with q hq
    split at h
    · cases hqt : q.tree with
      | none => rw [hqt] at h; cases h
      | some t =>
        rw [hqt] at h
        simp only at h
        pbind h with n hn
        injection h with h; subst h; cases ht
    · injection h with h; subst h; cases ho
  | endStream => exact .endStream
  | opt p => exact .opt
  | optSeq tag ps =>
    simp only [step] at h
    pbind h with q hq
    pbind h with n hn
    injection h with h; subst h; cases ht
  | plus tag p =>
    simp only [step] at h
    split at h
    · pbind h with q hq
      split at h
      · pbind h with r hr
        pbind h with n hn
        injection h with h; subst h; cases ht
      · injection h with h; subst h; cases ho
    · injection h with h; subst h; cases ho
  | seq tag ps =>
    simp only [step] at h
    pbind h with r hr
    split at h
    · pbind h with n hn
      injection h with h; subst h; cases ht
    · pbind h with n hn
      injection h with h; subst h; cases ho
  | seqIf tag p ps =>
    simp only [step] at h
    pbind h with q hq
    split at h
    · pbind h with r hr
      split at h
      · pbind h with n hn
        injection h with h; subst h; cases ht
      · pbind h with n hn
        injection h with h; subst h; cases ho
    · injection h with h; subst h; cases ho
  | star p =>
    simp only [step] at h
    pbind h with r hr
    pbind h with n hn
    injection h with h; subst h; cases ht
  | stmt r =>
    simp only [step, runStmt] at h
    pbind h with st hst
    pbind h with q hq
    split at h
    · injection h with h; subst h; cases ho
    · injection h with h; subst h; cases ht
  | tagIf tag p =>
    simp only [step] at h
    pbind h with q hq
    cases hqt : q.tree with
    | none => rw [hqt] at h; injection h with h; subst h; exact .tagIf (hf p s q hq ho hqt)
    | some t =>
      rw [hqt] at h
      simp only at h
      pbind h with n hn
      injection h with h; subst h; cases ht
  | rule r =>
    simp only [step] at h
    cases hb : g r with
    | comb p =>
      rw [hb] at h
      exact .comb hb (hf p s o h ho ht)
    | exec p =>
      rw [hb] at h
      simp only [runBody] at h
      pbind h with st hst
      split at h
      · injection h with h; subst h; cases ho
      · exact .exec hb (hf p s o h ho ht)
    | legacyDo =>
      rw [hb] at h
      simp only [runBody, runDo] at h
      pbind h with st hst
      pbind h with q hq
      split at h
      · injection h with h; subst h; cases ho
      · pbind h with lab hlab
        pbind h with r hr
        pbind h with e he
        split at h
        · injection h with h; subst h; cases ho
        · pbind h with n hn
          injection h with h; subst h; cases ht

theorem alts_conf (hk : Keeps c f) (hf : Conf c L g l f) : ∀ ps s o, T.onlyAll c ps = true → s.stmts = l →
    altsLoop f ps s = .ok o → o.ok = true → ∃ p ∈ ps, Derives L g p (branchesOf o.tree)
  | [], s, o, _, _, h, ho => by
    simp only [altsLoop] at h
    injection h with h; subst h; cases ho
  | p :: ps, s, o, hp, hs, h, ho => by
    simp only [T.onlyAll, Bool.and_eq_true] at hp
    simp only [altsLoop] at h
    pbind h with q hq
    by_cases hqk : q.ok = true
    · rw [if_pos hqk] at h; injection h with h; subst h
      exact ⟨p, by simp, hf p s q hp.1 hs hq hqk⟩
    · rw [if_neg hqk] at h
      obtain ⟨p', h1, h2⟩ := alts_conf hk hf ps q.s o hp.2 (by rw [(hk p s q hp.1 hq).step.stmts, hs]) h ho
      exact ⟨p', by simp [h1], h2⟩

theorem seq_conf (hk : Keeps c f) (hf : Conf c L g l f) : ∀ ps s acc tag b r, T.onlyAll c ps = true → s.stmts = l →
    Holds acc tag b → seqLoop f ps s acc = .ok r →
    ∃ ps1 ps2 b', ps = ps1 ++ ps2 ∧ (r.2.1 = true → ps2 = []) ∧ DerivesSeq L g ps1 b' ∧ Holds r.1 tag (b ++ b')
  | [], s, acc, tag, b, r, _, _, ha, h => by
    simp only [seqLoop] at h
    injection h with h; subst h
    exact ⟨[], [], [], rfl, fun _ => rfl, .nil, by simpa using ha⟩
  | p :: ps, s, acc, tag, b, r, hp, hs, ha, h => by
    simp only [T.onlyAll, Bool.and_eq_true] at hp
    simp only [seqLoop] at h
    pbind h with o ho
    have hi := hk p s o hp.1 ho
    by_cases hok : o.ok = true
    · rw [if_pos hok] at h
      obtain ⟨ps1, ps2, b', h1, h2, h3, h4⟩ := seq_conf hk hf ps o.s _ tag _ r hp.2 (by rw [hi.step.stmts, hs]) (ha.attach o.tree) h
      refine ⟨p :: ps1, ps2, branchesOf o.tree ++ b', by rw [h1]; rfl, h2, .cons (hf p s o hp.1 hs ho hok) h3, ?_⟩
      rw [← List.append_assoc]; exact h4
    · rw [if_neg hok] at h; injection h with h; subst h
      refine ⟨[], p :: ps, [], rfl, fun hh => by simp at hh, .nil, ?_⟩
      have := ha.attach o.tree
      rw [hi.none (by simpa using hok)] at this ⊢
      exact this

theorem star_conf (hk : Keeps c f) (hf : Conf c L g l f) {p : T} (hp : p.only c = true) : ∀ n s acc tag b r, s.stmts = l →
    Holds acc tag b → starLoop f p n s acc = .ok r → ∃ b', DerivesRep L g p b' ∧ Holds r.1 tag (b ++ b')
  | 0, s, acc, tag, b, r, _, _, h => by simp only [starLoop] at h; cases h
  | n + 1, s, acc, tag, b, r, hs, ha, h => by
    simp only [starLoop] at h
    by_cases hg : s.good = true
    · rw [if_pos hg] at h
      pbind h with o ho
      have hi := hk p s o hp ho
      by_cases hok : o.ok = true
      · rw [if_pos hok] at h
        obtain ⟨b', h3, h4⟩ := star_conf hk hf hp n o.s _ tag _ r (by rw [hi.step.stmts, hs]) (ha.attach o.tree) h
        refine ⟨branchesOf o.tree ++ b', .cons (hf p s o hp hs ho hok) h3, ?_⟩
        rw [← List.append_assoc]; exact h4
      · rw [if_neg hok] at h; injection h with h; subst h
        refine ⟨[], .nil, ?_⟩
        have := ha.attach o.tree
        rw [hi.none (by simpa using hok)] at this ⊢
        exact this
    · rw [if_neg hg] at h; injection h with h; subst h
      exact ⟨[], .nil, by simpa using ha⟩

theorem block_conf (hk : Keeps c f) (hf : Conf c L g l f) : ∀ n s acc tag b r, s.stmts = l →
    Holds acc tag b → blockLoop f n s acc = .ok r →
    ∃ b', DerivesRep L g (.rule .execution_part_construct) b' ∧ Holds r.1 tag (b ++ b') ∧ r.2.stmts = l
  | 0, s, acc, tag, b, r, _, _, h => by simp only [blockLoop] at h; cases h
  | n + 1, s, acc, tag, b, r, hs, ha, h => by
    simp only [blockLoop] at h
    pbind h with o ho
    have hi := hk _ s o rfl ho
    cases ht : o.tree with
    | none =>
      rw [ht] at h
      injection h with h; subst h
      exact ⟨[], .nil, by simpa using ha, by rw [hi.step.stmts, hs]⟩
    | some t =>
      rw [ht] at h
      have hok : o.ok = true := by
        cases hq : o.ok with
        | true => rfl
        | false => rw [hi.none hq] at ht; cases ht
      obtain ⟨b', h3, h4, h5⟩ := block_conf hk hf n o.s _ tag _ r (by rw [hi.step.stmts, hs]) (ha.hoist (d := t)) h
      refine ⟨branchesOf (some t) ++ b', .cons ?_ h3, ?_, h5⟩
      · have := hf _ s o rfl hs ho hok
        rwa [ht] at this
      · rw [← List.append_assoc]; exact h4

/-- The end of a do. -/
def EndConf (L : R → Nat → Int → Prop) (j : Nat) (d : DoEnd) : Prop :=
  d.sg ≠ Tag.HOIST ∧
  ((d.cons = Tag.PG_DO_CONSTRUCT ∧ d.pg = Tag.HOIST ∧ (L .end_do_stmt j d.sg ∨ L .end_do j d.sg)) ∨
   ((d.cons, d.pg) ∈ [(Tag.PG_ACTION_TERM_DO_CONSTRUCT, Tag.PG_DO_TERM_ACTION_STMT),
      (Tag.PG_OUTER_SHARED_DO_CONSTRUCT, Tag.PG_DO_TERM_SHARED_STMT), (Tag.PG_INNER_SHARED_DO_CONSTRUCT, Tag.PG_DO_TERM_SHARED_STMT)] ∧
    L .action_stmt j d.sg))

theorem doEnd_conf (hsp : NoHoist c sp) (hc : PBody.legacyDo.only c = true) (hL : Says L l sp) {s : PState} (hs : s.stmts = l)
    {e : Option DoEnd × PState} (h : doEnd sp s = .ok e) : ∀ d, e.1 = some d → EndConf L s.pos d := by
  simp only [PBody.only, Bool.and_eq_true] at hc
  unfold doEnd at h
  pbind h with st hst
  have hst := up_ok hst
  by_cases h1 : st.label ≤ 0
  · rw [if_pos h1] at h
    unfold endPlain at h
    pbind h with o ho
    obtain ⟨o1, o2⟩ := o
    cases o1 with
    | none => injection h with h; subst h; intro d hd; cases hd
    | some t =>
      injection h with h; subst h
      intro d hd
      cases hd
      exact ⟨hsp _ hc.1.1.2 _ _ _ ho, .inl ⟨rfl, rfl, .inl (hL.yes _ s st t _ hs hst ho)⟩⟩
  · rw [if_neg h1] at h
    pbind h with lv hlv
    by_cases h2 : lv.1 ≤ -1
    · rw [if_pos h2] at h; cases h
    · rw [if_neg h2] at h
      by_cases h3 : lv.1 > 0
      · rw [if_pos h3] at h
        unfold endShared at h
        pbind h with o ho
        obtain ⟨o1, o2⟩ := o
        cases o1 with
        | none => injection h with h; subst h; intro d hd; cases hd
        | some t =>
          simp only at h
          pbind h with k hk
          injection h with h; subst h
          intro d hd
          cases hd
          refine ⟨hsp _ hc.1.2 _ _ _ ho, .inr ⟨?_, hL.yes _ s st t _ hs hst ho⟩⟩
          by_cases hl : lv.1 = 1 <;> simp [hl]
      · rw [if_neg h3] at h
        unfold endSingle at h
        pbind h with o ho
        obtain ⟨o1, o2⟩ := o
        cases o1 with
        | some t =>
          simp only at h
          pbind h with k hk
          injection h with h; subst h
          intro d hd
          cases hd
          exact ⟨hsp _ hc.2 _ _ _ ho, .inl ⟨rfl, rfl, .inr (hL.yes _ s st t _ hs hst ho)⟩⟩
        | none =>
          simp only at h
          pbind h with q hq
          have hb := hL.back _ _ ho
          subst hb
          obtain ⟨q1, q2⟩ := q
          cases q1 with
          | none => injection h with h; subst h; intro d hd; cases hd
          | some t =>
            simp only at h
            pbind h with k hk
            injection h with h; subst h
            intro d hd
            cases hd
            exact ⟨hsp _ hc.1.2 _ _ _ hq, .inr ⟨by simp, hL.yes _ s st t _ hs hst hq⟩⟩

theorem doTree_conf {doTag : Int} {i j : Nat} {block : PNode} {e : DoEnd} {n : PNode} {b : List Sh} (h1 : doTag ≠ Tag.HOIST)
    (hb : Holds block Tag.PG_BLOCK b) (he : EndConf L j e) (h : doTree doTag i block j e = .ok n) :
    branchesOf (some n) = if e.cons = Tag.PG_DO_CONSTRUCT then
        [.inner Tag.PG_DO_CONSTRUCT [.leaf i doTag, .inner Tag.PG_BLOCK b, .leaf j e.sg]]
      else [.inner Tag.PG_NONBLOCK_DO_CONSTRUCT [.inner e.cons [.leaf i doTag, .inner Tag.PG_DO_BODY b, .inner e.pg [.leaf j e.sg]]]] := by
  unfold doTree at h
  rbind h with bn hbn
  rbind h with term ht
  rbind h with sub hsub
  have s1 := (Holds.new (if e.cons = Tag.PG_DO_CONSTRUCT then Tag.HOIST else e.cons) none).hoist (d := .node doTag (some (i, i + 1)) (some i) [])
  rw [leaf_branches h1, List.nil_append] at s1
  have hb2 : Holds (.node (if e.cons = Tag.PG_DO_CONSTRUCT then block.tag else Tag.PG_DO_BODY) block.range block.stmt block.kids)
      (if e.cons = Tag.PG_DO_CONSTRUCT then Tag.PG_BLOCK else Tag.PG_DO_BODY) b := by
    refine ⟨?_, hb.2.1, hb.2.2⟩
    show (if _ then _ else _) = _
    rw [hb.1]
  have s2 := s1.hoist (d := bn)
  rw [(hb2.cover hbn).branches] at s2
  have t1 := (Holds.new e.pg none).hoist (d := .node e.sg (some (j, j + 1)) (some j) [])
  rw [leaf_branches he.1, List.nil_append] at t1
  have s3 := s2.hoist (d := term)
  rw [(t1.cover ht).branches] at s3
  have u := (Holds.new (if e.cons = Tag.PG_DO_CONSTRUCT then Tag.PG_DO_CONSTRUCT else Tag.PG_NONBLOCK_DO_CONSTRUCT) none).hoist (d := sub)
  rw [(s3.cover hsub).branches, List.nil_append] at u
  have v := (u.cover h).branches
  rw [v]
  rcases he.2 with ⟨c1, c2, _⟩ | ⟨c1, _⟩
  · rw [c1, c2]
    rfl
  · simp only [List.mem_cons, List.not_mem_nil, or_false, Prod.mk.injEq] at c1
    rcases c1 with ⟨c1, c2⟩ | ⟨c1, c2⟩ | ⟨c1, c2⟩ <;> rw [c1, c2] <;> rfl

theorem do_conf (hsp : NoHoist c sp) (hk : Keeps c f) (hf : Conf c L g l f) (hL : Says L l sp) (hc : PBody.legacyDo.only c = true)
    {r : PR} (hr : g r = .legacyDo) {k : Nat} {s : PState} (hs : s.stmts = l)
    {o : POut} (h : runDo sp f k s = .ok o) (ho : o.ok = true) : Derives L g (.rule r) (branchesOf o.tree) := by
  unfold runDo at h
  pbind h with st hst
  pbind h with q hq
  have hst := up_ok hst
  obtain ⟨q1, q2⟩ := q
  cases q1 with
  | none => injection h with h; subst h; cases ho
  | some t =>
    simp only at h
    pbind h with label hlabel
    pbind h with w hw
    pbind h with e he
    have hs1 : ((if label > 0 then { s with stack := s.stack.push label } else s : PState).attach t).advance.stmts = l := by
      rw [(advance_eq _).1]
      by_cases hl : label > 0 <;> simp [hl, PState.attach, hs]
    obtain ⟨b, b1, b2, b3⟩ := block_conf hk hf k _ _ _ _ w hs1 (Holds.new Tag.PG_BLOCK none) hw
    rw [List.nil_append] at b2
    have he' := doEnd_conf hsp hc hL b3 he
    obtain ⟨e1, e2⟩ := e
    cases e1 with
    | none => injection h with h; subst h; cases ho
    | some d =>
      simp only at h
      pbind h with n hn
      injection h with h; subst h
      have hd := he' d rfl
      have hc' := hc
      simp only [PBody.only, Bool.and_eq_true] at hc'
      have ht := doTree_conf (hsp _ hc'.1.1.1 _ _ _ hq) b2 hd (up_ok hn)
      have hdo := hL.yes _ s st t _ hs hst hq
      simp only
      rw [ht]
      rcases hd.2 with ⟨c1, _, c3⟩ | ⟨c1, c2⟩
      · rw [if_pos c1]
        exact .doEnd hr hdo b1 c3
      · have hne : d.cons ≠ Tag.PG_DO_CONSTRUCT := by
          simp only [List.mem_cons, List.not_mem_nil, or_false, Prod.mk.injEq] at c1
          rcases c1 with ⟨c1, _⟩ | ⟨c1, _⟩ | ⟨c1, _⟩ <;> rw [c1] <;> decide
        rw [if_neg hne]
        exact .doAction (q := (d.cons, d.pg)) hr hdo b1 c2 c1

theorem seqEnd_conf {tag : Int} {b : List Sh} {r : PNode × Bool × PState} {o : POut} (ha : r.2.1 = true → Holds r.1 tag b)
    (h : (if r.2.1 then do
        let n ← up (coverBranches r.1)
        .ok ⟨some n, true, r.2.2⟩
      else do
        let s' ← up r.2.2.complain
        .ok (noMatch s'.giveUp) : PRes POut) = .ok o) (ho : o.ok = true) : r.2.1 = true ∧ branchesOf o.tree = under tag b := by
  by_cases hk : r.2.1 = true
  · rw [if_pos hk] at h
    pbind h with n hn
    injection h with h; subst h
    exact ⟨hk, ((ha hk).cover (up_ok hn)).branches⟩
  · rw [if_neg hk] at h
    pbind h with s' hs'
    injection h with h; subst h
    cases ho

theorem step_conf (hsp : NoHoist c sp) (hg : ∀ r, (g r).only c = true) (hk : Keeps c f) (hf : Conf c L g l f) (hL : Says L l sp)
    (hsu : SureOk g f) (hba : BareOk g f) {k : Nat} {p : T} (hp : p.only c = true) {s : PState} (hs : s.stmts = l) {o : POut} (h : step sp g f k p s = .ok o)
    (ho : o.ok = true) : Derives L g p (branchesOf o.tree) := by
  cases p with
  | alts tag ps =>
    simp only [step] at h
    rw [T.only] at hp
    pbind h with q hq
    by_cases hqk : q.ok = true
    · rw [if_pos hqk] at h
      obtain ⟨p, h1, h2⟩ := alts_conf hk hf ps s q hp hs hq hqk
      cases ht : q.tree with
      | none => rw [ht] at h; cases h
      | some t =>
        rw [ht] at h h2
        simp only at h
        pbind h with n hn
        injection h with h; subst h
        have := ((Holds.new tag none).hoist (d := t)).cover (up_ok hn)
        simp only
        rw [this.branches, List.nil_append]
        exact .alts h1 h2
    · rw [if_neg hqk] at h; injection h with h; subst h; cases ho
  | endStream =>
    simp only [step] at h
    by_cases hgd : s.good = true
    · rw [if_pos hgd] at h
      pbind h with s' hs'
      injection h with h; subst h; cases ho
    · rw [if_neg hgd] at h; injection h with h; subst h
      exact .endStream
  | opt p =>
    simp only [step] at h
    rw [T.only] at hp
    pbind h with q hq
    have hi := hk p s q hp hq
    cases ht : q.tree with
    | none =>
      rw [ht] at h
      injection h with h; subst h
      cases hqk : q.ok with
      | true =>
        have := hf p s q hp hs hq hqk
        rw [ht] at this
        exact .opt this
      | false =>
        refine .optNo (fun hp => ?_)
        rw [hsu p s q hp hq] at hqk
        cases hqk
    | some t =>
      rw [ht] at h
      simp only at h
      pbind h with n hn
      injection h with h; subst h
      have hqk : q.ok = true := by
        cases hq : q.ok with
        | true => rfl
        | false => rw [hi.none hq] at ht; cases ht
      have := hf p s q hp hs hq hqk
      rw [ht] at this
      simp only
      rw [recover_branches (up_ok hn)]
      exact .opt this
  | optSeq tag ps =>
    simp only [step] at h
    rw [T.only] at hp
    pbind h with r hr
    pbind h with n hn
    injection h with h; subst h
    obtain ⟨ps1, ps2, b, e1, e2, e3, e4⟩ := seq_conf hk hf ps s _ tag [] r hp hs (Holds.new tag none) hr
    rw [List.nil_append] at e4
    simp only
    rw [(e4.cover (up_ok hn)).branches, e1]
    exact .optSeq e3
  | plus tag p =>
    simp only [step] at h
    rw [T.only] at hp
    by_cases hg' : s.good = true
    · rw [if_pos hg'] at h
      pbind h with q hq
      have hi := hk p s q hp hq
      by_cases hqk : q.ok = true
      · rw [if_pos hqk] at h
        pbind h with r hr
        pbind h with n hn
        injection h with h; subst h
        obtain ⟨b, b1, b2⟩ := star_conf hk hf hp k q.s _ tag _ r (by rw [hi.step.stmts, hs]) ((Holds.new tag none).attach q.tree) hr
        rw [List.nil_append] at b2
        simp only
        rw [(b2.cover (up_ok hn)).branches]
        exact .plus (hf p s q hp hs hq hqk) b1
      · rw [if_neg hqk] at h; injection h with h; subst h; cases ho
    · rw [if_neg hg'] at h; injection h with h; subst h; cases ho
  | seq tag ps =>
    simp only [step] at h
    rw [T.only] at hp
    pbind h with r hr
    obtain ⟨ps1, ps2, b, e1, e2, e3, e4⟩ := seq_conf hk hf ps s _ tag [] r hp hs (Holds.new tag none) hr
    rw [List.nil_append] at e4
    obtain ⟨f1, f2⟩ := seqEnd_conf (fun _ => e4) h ho
    rw [f2]
    rw [e2 f1, List.append_nil] at e1
    subst e1
    exact .seq e3
  | seqIf tag p ps =>
    simp only [step] at h
    rw [T.only, Bool.and_eq_true] at hp
    pbind h with q hq
    have hi := hk p s q hp.1 hq
    by_cases hqk : q.ok = true
    · rw [if_pos hqk] at h
      pbind h with r hr
      obtain ⟨ps1, ps2, b, e1, e2, e3, e4⟩ := seq_conf hk hf ps q.s _ tag _ r hp.2 (by rw [hi.step.stmts, hs])
        ((Holds.new tag none).attach q.tree) hr
      rw [List.nil_append] at e4
      obtain ⟨f1, f2⟩ := seqEnd_conf (fun _ => e4) h ho
      rw [f2]
      rw [e2 f1, List.append_nil] at e1
      subst e1
      exact .seqIf (.cons (hf p s q hp.1 hs hq hqk) e3)
    · rw [if_neg hqk] at h; injection h with h; subst h; cases ho
  | star p =>
    simp only [step] at h
    rw [T.only] at hp
    pbind h with r hr
    pbind h with n hn
    injection h with h; subst h
    obtain ⟨b, b1, b2⟩ := star_conf hk hf hp k s _ _ _ r hs (Holds.new Tag.HOIST none) hr
    rw [List.nil_append] at b2
    simp only
    rw [(b2.cover (up_ok hn)).branches, under, if_pos rfl]
    exact .star b1
  | stmt r =>
    simp only [step] at h
    rw [T.only] at hp
    unfold runStmt at h
    pbind h with st hst
    pbind h with q hq
    obtain ⟨q1, q2⟩ := q
    cases q1 with
    | none => injection h with h; subst h; cases ho
    | some t =>
      injection h with h; subst h
      simp only
      rw [leaf_branches (hsp _ hp _ _ _ hq)]
      exact .stmt (hL.yes _ s st t _ hs (up_ok hst) hq)
  | tagIf tag p =>
    simp only [step] at h
    rw [T.only] at hp
    pbind h with q hq
    have hi := hk p s q hp hq
    cases ht : q.tree with
    | none =>
      rw [ht] at h; injection h with h; subst h
      have := hf p s q hp hs hq ho
      rw [ht] at this ⊢
      exact .tagNo (hba p s q hq ho ht) this
    | some t =>
      rw [ht] at h
      simp only at h
      pbind h with n hn
      injection h with h; subst h
      have := hf p s q hp hs hq ho
      rw [ht] at this
      have hh := ((Holds.new tag none).hoist (d := t)).cover (up_ok hn)
      simp only
      rw [hh.branches, List.nil_append]
      exact .tagIf this
  | rule r =>
    simp only [step] at h
    have hgr := hg r
    cases hb : g r with
    | comb p =>
      rw [hb] at h hgr
      exact .comb hb (hf p s o hgr hs h ho)
    | exec p =>
      rw [hb] at h hgr
      simp only [runBody] at h
      pbind h with st hst
      by_cases ht : s.stack.isTop st.label = true
      · rw [if_pos ht] at h; injection h with h; subst h; cases ho
      · rw [if_neg ht] at h
        exact .exec hb (hf p s o hgr hs h ho)
    | legacyDo =>
      rw [hb] at h hgr
      exact do_conf hsp hk hf hL hgr hb hs h ho

end

theorem eval_sure (sp : StmtP) (g : PR → PBody) : ∀ n, SureOk g (eval sp g n)
  | 0 => by intro p s o _ h; cases h
  | n + 1 => step_sure (eval_sure sp g n) n

theorem eval_bare (sp : StmtP) (g : PR → PBody) : ∀ n, BareOk g (eval sp g n)
  | 0 => by intro p s o h; cases h
  | n + 1 => step_bare (eval_bare sp g n) n

theorem eval_conf {sp : StmtP} {c : R → Bool} {g : PR → PBody} {L : R → Nat → Int → Prop} {l : List LStmt} (hsp : NoHoist c sp)
    (hg : ∀ r, (g r).only c = true) (hL : Says L l sp) : ∀ n, Conf c L g l (eval sp g n)
  | 0 => by intro p s o _ _ h; cases h
  | n + 1 => fun _ _ _ hp hs h ho => step_conf hsp hg (eval_inv hsp hg n) (eval_conf hsp hg hL n) hL (eval_sure sp g n) (eval_bare sp g n) hp hs h ho

/-! ### Fewer statements -/

mutual
/-- The statements of a tree without ranges. -/
def Sh.stmts : Sh → List Nat
  | .leaf i _ => [i]
  | .inner _ ks => Sh.stmtsAll ks
def Sh.stmtsAll : List Sh → List Nat
  | [] => []
  | k :: ks => Sh.stmts k ++ Sh.stmtsAll ks
end

theorem Sh.stmtsAll_append (a b : List Sh) : Sh.stmtsAll (a ++ b) = Sh.stmtsAll a ++ Sh.stmtsAll b := by
  induction a with
  | nil => rfl
  | cons x a ih => simp [Sh.stmtsAll, ih]

theorem stmtsAll_under (tag : Int) (f : List Sh) : Sh.stmtsAll (under tag f) = Sh.stmtsAll f := by
  rw [under]
  split
  · rfl
  · simp [Sh.stmtsAll, Sh.stmts]

mutual
theorem erase_stmts : ∀ t : PNode, Sh.stmts (erase t) = leavesOf t
  | .node _ _ (some i) _ => by simp [erase, Sh.stmts, leavesOf]
  | .node _ _ none ks => by simp [erase, Sh.stmts, leavesOf, eraseAll_stmts ks]
theorem eraseAll_stmts : ∀ ks : List PNode, Sh.stmtsAll (eraseAll ks) = stmtsOfAll ks
  | [] => by simp [eraseAll, Sh.stmtsAll, stmtsOfAll]
  | k :: ks => by simp [eraseAll, Sh.stmtsAll, stmtsOfAll, erase_stmts k, eraseAll_stmts ks]
end

section
variable {L L' : R → Nat → Int → Prop} {g : PR → PBody} {P : Nat → Prop} (hL : ∀ r i t, L r i t → P i → L' r i t)

set_option linter.unusedSectionVars false
include hL
mutual
theorem derives_mono {p : T} {f : List Sh} : Derives L g p f → (∀ i ∈ Sh.stmtsAll f, P i) → Derives L' g p f
  | .alts hm h, hP => .alts hm (derives_mono h (by simpa [stmtsAll_under] using hP))
  | .endStream, _ => .endStream
  | .optNo hn, _ => .optNo hn
  | .opt h, hP => .opt (derives_mono h hP)
  | .optSeq h, hP => .optSeq (derivesSeq_mono h (by simpa [stmtsAll_under] using hP))
  | .plus h h', hP => .plus
      (derives_mono h (fun i hi => hP i (by rw [stmtsAll_under, Sh.stmtsAll_append]; simp [hi])))
      (derivesRep_mono h' (fun i hi => hP i (by rw [stmtsAll_under, Sh.stmtsAll_append]; simp [hi])))
  | .seq h, hP => .seq (derivesSeq_mono h (by simpa [stmtsAll_under] using hP))
  | .seqIf h, hP => .seqIf (derivesSeq_mono h (by simpa [stmtsAll_under] using hP))
  | .star h, hP => .star (derivesRep_mono h hP)
  | .stmt h, hP => .stmt (hL _ _ _ h (hP _ (by simp [Sh.stmtsAll, Sh.stmts])))
  | .tagNo hb h, hP => .tagNo hb (derives_mono h hP)
  | .tagIf h, hP => .tagIf (derives_mono h (by simpa [stmtsAll_under] using hP))
  | .comb hr h, hP => .comb hr (derives_mono h hP)
  | .exec hr h, hP => .exec hr (derives_mono h hP)
  | .doEnd hr h1 h2 h3, hP => .doEnd hr (hL _ _ _ h1 (hP _ (by simp [Sh.stmtsAll, Sh.stmts])))
      (derivesRep_mono h2 (fun i hi => hP i (by simp [Sh.stmtsAll, Sh.stmts, hi])))
      (h3.elim (fun h => .inl (hL _ _ _ h (hP _ (by simp [Sh.stmtsAll, Sh.stmts]))))
        (fun h => .inr (hL _ _ _ h (hP _ (by simp [Sh.stmtsAll, Sh.stmts])))))
  | .doAction hr h1 h2 h3 hq, hP => .doAction hr (hL _ _ _ h1 (hP _ (by simp [Sh.stmtsAll, Sh.stmts])))
      (derivesRep_mono h2 (fun i hi => hP i (by simp [Sh.stmtsAll, Sh.stmts, hi]))) (hL _ _ _ h3 (hP _ (by simp [Sh.stmtsAll, Sh.stmts]))) hq
theorem derivesSeq_mono {ps : List T} {f : List Sh} : DerivesSeq L g ps f → (∀ i ∈ Sh.stmtsAll f, P i) → DerivesSeq L' g ps f
  | .nil, _ => .nil
  | .cons h h', hP => .cons
      (derives_mono h (fun i hi => hP i (by rw [Sh.stmtsAll_append]; simp [hi])))
      (derivesSeq_mono h' (fun i hi => hP i (by rw [Sh.stmtsAll_append]; simp [hi])))
theorem derivesRep_mono {p : T} {f : List Sh} : DerivesRep L g p f → (∀ i ∈ Sh.stmtsAll f, P i) → DerivesRep L' g p f
  | .nil, _ => .nil
  | .cons h h', hP => .cons
      (derives_mono h (fun i hi => hP i (by rw [Sh.stmtsAll_append]; simp [hi])))
      (derivesRep_mono h' (fun i hi => hP i (by rw [Sh.stmtsAll_append]; simp [hi])))
end
end

end PP
end FLPR
