import Verif.StmtParser.CoverMain
import Verif.StmtParser.Term
/-!
# What can be read off a parser term

Static facts about terms, each with the lemma that makes it a fact about what the parser does.
-/

namespace FLPR
namespace SP
open Spec

/-! ### No tree means that the stream has not moved -/

/-- No tree means that the stream is where it was. -/
def P.treeRestores : P → Bool
  | .alts _ ps => P.restoresAll ps
  | .opt p => p.treeRestores
  | .neg p => p.treeRestores
  | .tagIf _ p => p.treeRestores
  | _ => true

def Body.treeRestores : Body → Bool
  | .comb p => p.treeRestores
  | .expr _ _ => true
  | .parens => true
  | .listName => true
  | .procDesignator _ => false
  | .withExts _ p => p.restores && p.treeRestores

theorem eval_treeRestores (g : R → Body) (x : Exts) : ∀ n p s o, p.treeRestores = true →
    eval g x n p s = .ok o → o.tree = none → o.s = s := by
  intro n
  induction n with
  | zero => intro p s o _ h; cases h
  | succ n ih =>
    intro p s o hp h0 ht
    have back : p.restores = true → o.ok = false → o.s = s :=
      fun h1 h2 => (eval_restores g x _ p s o h1 h0 h2).1
    have h := h0
    rw [eval] at h
    cases p with
    | alts tag ps =>
      rw [step] at h
      pbind h with o1 h1
      split at h
      · pbind h with n hn
        injection h with h; subst h; cases ht
      · next hk => injection h with h; subst h; exact back hp (by simpa using hk)
    | letter =>
      rcases runLetter_out (up_ok h) with rfl | ⟨_, rfl, _⟩
      · rfl
      · cases ht
    | literal w =>
      rcases runLiteral_out (up_ok h) with rfl | ⟨_, rfl, _⟩
      · rfl
      · cases ht
    | name =>
      rcases runName_out (up_ok h) with rfl | ⟨_, rfl, _⟩
      · rfl
      · cases ht
    | tok t =>
      rcases runTok_out (up_ok h) with rfl | ⟨_, rfl, _⟩
      · rfl
      · cases ht
    | peek t =>
      have h := up_ok h
      rw [runPeek] at h
      rbind h with u hu
      injection h with h; subst h; rfl
    | neg p =>
      rw [step] at h
      pbind h with o1 h1
      injection h with h; subst h
      rw [P.treeRestores] at hp
      exact ih p s o1 hp h1 ht
    | opt p =>
      rw [step] at h
      pbind h with o1 h1
      injection h with h; subst h
      rw [P.treeRestores] at hp
      exact ih p s o1 hp h1 ht
    | rule r =>
      rw [step] at h
      pbind h with w hw
      split at h
      · injection h with h; subst h; exact back rfl rfl
      · injection h with h; subst h; cases ht
    | seq tag ps =>
      rw [step] at h
      pbind h with w hw
      split at h
      · pbind h with n hn
        injection h with h; subst h; cases ht
      · injection h with h; subst h; exact back rfl rfl
    | star p =>
      rw [step] at h
      pbind h with w hw
      pbind h with n hn
      injection h with h; subst h; cases ht
    | tagIf tag p =>
      rw [step] at h
      pbind h with o1 h1
      split at h
      · pbind h with n hn
        injection h with h; subst h; cases ht
      · injection h with h; subst h
        rw [P.treeRestores] at hp
        exact ih p s o1 hp h1 ht

theorem untilBreak_none {f : P → Strm → PRes Out} {real : P} : ∀ k s d ks w,
    untilBreak f real k s d ks = .ok w → w.1 = some [] → w.2 = s ∧ ks = [] := by
  intro k
  induction k with
  | zero => intro s d ks w h; cases h
  | succ k ih =>
    intro s d ks w h hw
    rw [untilBreak] at h
    pbind h with t ht
    split at h
    · injection h with h; subst h; injection hw with hw; exact ⟨rfl, hw⟩
    · injection h with h; subst h; cases hw
    · split at h
      · pbind h with o ho
        pbind h with ks' hks
        have hn := up_ok hks
        have := (ih _ _ _ _ h hw).2
        subst this
        cases htree : o.tree with
        | none => rw [htree, graftBack] at hn; cases hn
        | some nd => rw [htree, graftBack] at hn; injection hn with hn; simp at hn
      · pbind h with r hd
        have := (ih _ _ _ _ h hw).2
        simp at this

theorem extLoop_none {tag : Int} {s : Strm} : ∀ es t, extLoop tag s.pos es s = .ok (none, t) → t = s := by
  intro es
  induction es with
  | nil => intro t h; rw [extLoop] at h; injection h with h; injection h with _ h; exact h.symm
  | cons e es ih =>
    intro t h
    rw [extLoop] at h
    rbind h with r hr
    split at h
    · rbind h with n hn
      cases h
    · simp only [Strm.goto_goto, Strm.goto_self] at h
      exact ih t h

theorem evalRule_treeRestores {g : R → Body} {x : Exts} {n : Nat} {r : R} {s t : Strm}
    (hr : (g r).treeRestores = true) (h : evalRule g x n r s = .ok (none, t)) : t = s := by
  rw [evalRule] at h
  cases hb : g r with
  | comb p =>
    rw [hb] at h hr
    rw [runBody] at h
    pbind h with o ho
    injection h with h
    injection h with h1 h2
    rw [← h2]
    exact eval_treeRestores g x n p s o hr ho h1
  | expr tag real =>
    rw [hb] at h
    rw [runBody, runExpr] at h
    pbind h with u hu
    split at h
    · injection h with h; injection h with _ h; exact h.symm
    · pbind h with w hw
      split at h
      · injection h with h; injection h with _ h; exact h.symm
      · next hk =>
        injection h with h
        injection h with _ h2
        rw [← h2]
        exact (untilBreak_none _ _ _ _ _ hw hk).1
      · pbind h with nd hnd
        cases h
  | parens =>
    rw [hb] at h
    rw [runBody, runParens] at h
    pbind h with u hu
    split at h
    · injection h with h; injection h with _ h; exact h.symm
    · pbind h with w hw
      pbind h with q hq
      pbind h with nd hnd
      cases h
  | listName =>
    rw [hb] at h
    rw [runBody] at h
    have h := up_ok h
    rw [runListName] at h
    rbind h with u hu
    rbind h with b hb
    split at h
    · rbind h with nx hnx
      split at h
      · rbind h with w hw
        cases h
      · injection h with h; injection h with _ h; exact h.symm
    · injection h with h; injection h with _ h; exact h.symm
  | procDesignator p => rw [hb] at hr; cases hr
  | withExts a p =>
    rw [hb] at h hr
    rw [Body.treeRestores, Bool.and_eq_true] at hr
    rw [runBody] at h
    pbind h with o ho
    split at h
    · injection h with h
      injection h with h1 h2
      rw [← h2]
      exact eval_treeRestores g x n p s o hr.2 ho h1
    · next hk =>
      have hs := (eval_restores g x _ p s o hr.1 ho (by simpa using hk)).1
      have h := up_ok h
      rw [hs, runExts] at h
      split at h
      · exact extLoop_none _ _ h
      · exact extLoop_none _ _ h

/-! ### The end of the statement -/

section ends
variable (e : R → Bool)

mutual
/-- A match means that there is no token left. -/
def P.okEnds : P → Bool
  | .alts _ ps => P.okEndsAll ps
  | .seq _ ps => P.okEndsLast ps
  | .tagIf _ p => p.okEnds
  | .rule r => e r
  | .peek t => t == Tag.BAD
  | .tok _ => false
  | .name => false
  | .letter => false
  | .literal _ => false
  | .neg _ => false
  | .opt _ => false
  | .star _ => false
def P.okEndsAll : List P → Bool
  | [] => true
  | p :: ps => p.okEnds && P.okEndsAll ps
def P.okEndsLast : List P → Bool
  | [] => false
  | [p] => p.okEnds
  | _ :: p :: ps => P.okEndsLast (p :: ps)
end

/-- A tree means that there is no token left. -/
def P.treeEnds : P → Bool
  | .peek _ => true
  | .opt p => p.treeEnds
  | .neg p => p.treeEnds
  | .tagIf _ p => p.treeEnds
  | p => p.okEnds e

def Body.ends : Body → Bool
  | .comb p => p.treeEnds e
  | .withExts _ p => p.okEnds e && p.treeEnds e && p.restores
  | _ => false

end ends

/-- Extensions that only match whole statements. -/
def Exts.End (x : Exts) : Prop :=
  ∀ e ∈ x.action ++ x.other, ∀ s t q, e s = .ok (some t, q) → (s.goto q).peek = .ok Tag.BAD

/-- What is known of the inner parsers. -/
structure Ends (e : R → Bool) (f : P → Strm → PRes Out) : Prop where
  ok : ∀ p s o, p.okEnds e = true → f p s = .ok o → o.ok = true → o.s.peek = .ok Tag.BAD
  tree : ∀ p s o n, p.treeEnds e = true → f p s = .ok o → o.tree = some n → o.s.peek = .ok Tag.BAD

section ends
variable {g : R → Body} {x : Exts} {e : R → Bool} {f : P → Strm → PRes Out}

theorem altsLoop_ends (H : Ends e f) : ∀ ps s o, P.okEndsAll e ps = true →
    altsLoop f ps s = .ok o → o.ok = true → o.s.peek = .ok Tag.BAD := by
  intro ps
  induction ps with
  | nil => intro s o _ h ho; rw [altsLoop] at h; injection h with h; subst h; cases ho
  | cons p ps ih =>
    intro s o hc h ho
    rw [P.okEndsAll, Bool.and_eq_true] at hc
    rw [altsLoop] at h
    pbind h with o1 h1
    split at h
    · injection h with h; subst h; exact H.ok _ _ o1 hc.1 h1 ho
    · exact ih _ _ hc.2 h ho

theorem seqLoop_ends (H : Ends e f) : ∀ ps s acc w, P.okEndsLast e ps = true →
    seqLoop f ps s acc = .ok w → w.2.1 = true → w.2.2.peek = .ok Tag.BAD := by
  intro ps
  induction ps with
  | nil => intro s acc w hc; cases hc
  | cons p ps ih =>
    intro s acc w hc h hw
    rw [seqLoop] at h
    pbind h with o h1
    split at h
    · next hok =>
      cases ps with
      | nil =>
        rw [seqLoop] at h
        injection h with h; subst h
        exact H.ok _ _ o hc h1 hok
      | cons q ps => exact ih _ _ _ hc h hw
    · injection h with h; subst h; cases hw

theorem extLoop_ends (hx : x.End) {tag : Int} {s : Strm} : ∀ es, (∀ q ∈ es, q ∈ x.action ++ x.other) →
    ∀ r n, extLoop tag s.pos es s = .ok r → r.1 = some n → r.2.peek = .ok Tag.BAD := by
  intro es
  induction es with
  | nil => intro _ r n h hn; rw [extLoop] at h; injection h with h; subst h; cases hn
  | cons q es ih =>
    intro hm r n h hn
    rw [extLoop] at h
    rbind h with w hw
    split at h
    · next st hst =>
      rbind h with nd hnd
      injection h with h; subst h
      exact hx q (hm q (by simp)) s st w.2 (by rw [hw, ← hst])
    · simp only [Strm.goto_goto, Strm.goto_self] at h
      exact ih (fun q hq => hm q (by simp [hq])) r n h hn

theorem runBody_ends (hx : x.End) (H : Ends e f) {k : Nat} {b : Body} {s : Strm}
    {r : Option SNode × Strm} {n : SNode} (hr : ∀ p s o, p.restores = true → f p s = .ok o → Restored s o)
    (hc : b.ends e = true) (h : runBody x f k b s = .ok r) (hn : r.1 = some n) :
    r.2.peek = .ok Tag.BAD := by
  cases b with
  | comb p =>
    rw [runBody] at h
    pbind h with o ho
    injection h with h; subst h
    exact H.tree _ _ o n hc ho hn
  | withExts a p =>
    rw [Body.ends] at hc
    simp only [Bool.and_eq_true] at hc
    rw [runBody] at h
    pbind h with o ho
    split at h
    · next hk => injection h with h; subst h; exact H.ok _ _ o hc.1.1 ho hk
    · next hk =>
      have h := up_ok h
      rw [(hr _ _ _ hc.2 ho (by simpa using hk)).1, runExts] at h
      split at h
      · exact extLoop_ends hx _ (fun q hq => by simp [hq]) r n h hn
      · exact extLoop_ends hx _ (fun q hq => by simp [hq]) r n h hn
  | expr tag real => cases hc
  | parens => cases hc
  | listName => cases hc
  | procDesignator p => cases hc

theorem step_ends (hx : x.End) (hg : ∀ r, e r = true → (g r).ends e = true)
    (hr : ∀ p s o, p.restores = true → f p s = .ok o → Restored s o) (H : Ends e f)
    {k : Nat} : Ends e (step g x f k) := by
  have hok : ∀ p s o, p.okEnds e = true → step g x f k p s = .ok o → o.ok = true →
      o.s.peek = .ok Tag.BAD := by
    intro p s o hc h ho
    cases p with
    | alts tag ps =>
      rw [P.okEnds] at hc
      rw [step] at h
      pbind h with o1 h1
      split at h
      · next hk =>
        pbind h with n hn
        injection h with h; subst h
        exact altsLoop_ends H _ _ o1 hc h1 hk
      · injection h with h; subst h; exact altsLoop_ends H _ _ _ hc h1 ho
    | letter => cases hc
    | literal w => cases hc
    | name => cases hc
    | tok t => cases hc
    | neg p => cases hc
    | opt p => cases hc
    | peek t =>
      rw [P.okEnds] at hc
      have h := up_ok h
      rw [runPeek] at h
      rbind h with u hu
      injection h with h; subst h
      show s.peek = _
      rw [hu, ← show t = u by simpa using ho, show t = Tag.BAD by simpa using hc]
    | star p => cases hc
    | rule r =>
      rw [P.okEnds] at hc
      rw [step] at h
      pbind h with w hw
      split at h
      · injection h with h; subst h; cases ho
      · next n hn =>
        injection h with h; subst h
        exact runBody_ends hx H hr (hg r hc) hw hn
    | seq tag ps =>
      rw [P.okEnds] at hc
      rw [step] at h
      pbind h with w hw
      split at h
      · next hk =>
        pbind h with n hn
        injection h with h; subst h
        exact seqLoop_ends H _ _ _ _ hc hw hk
      · injection h with h; subst h; cases ho
    | tagIf tag p =>
      rw [P.okEnds] at hc
      rw [step] at h
      pbind h with o1 h1
      split at h
      · pbind h with n hn
        injection h with h; subst h
        exact H.ok _ _ o1 hc h1 ho
      · injection h with h; subst h
        exact H.ok _ _ o1 hc h1 ho
  refine ⟨hok, ?_⟩
  intro p s o n hc h ho
  cases p with
  | alts tag ps =>
    have hk : o.ok = true := by
      rw [step] at h
      pbind h with o1 h1
      split at h
      · next hk =>
        pbind h with n hn
        injection h with h; subst h
        rfl
      · next hk =>
        injection h with h; subst h
        rw [altsLoop_tree _ _ _ h1 (by simpa using hk)] at ho
        cases ho
    exact hok _ _ _ hc h hk
  | letter => cases hc
  | literal w => cases hc
  | name => cases hc
  | tok t => cases hc
  | neg p =>
    rw [step] at h
    pbind h with o1 h1
    injection h with h; subst h
    rw [P.treeEnds] at hc
    exact H.tree p _ o1 _ hc h1 ho
  | opt p =>
    rw [step] at h
    pbind h with o1 h1
    injection h with h; subst h
    rw [P.treeEnds] at hc
    exact H.tree p _ o1 _ hc h1 ho
  | peek t =>
    have := up_ok h
    rw [runPeek] at this
    rbind this with u hu
    injection this with this; subst this
    cases ho
  | star p => cases hc
  | rule r =>
    have hk : o.ok = true := by
      rw [step] at h
      pbind h with w hw
      split at h
      · injection h with h; subst h; cases ho
      · injection h with h; subst h; rfl
    exact hok _ _ _ hc h hk
  | seq tag ps =>
    have hk : o.ok = true := by
      rw [step] at h
      pbind h with w hw
      split at h
      · pbind h with n hn
        injection h with h; subst h; rfl
      · injection h with h; subst h; cases ho
    exact hok _ _ _ hc h hk
  | tagIf tag p =>
    rw [P.treeEnds] at hc
    rw [step] at h
    pbind h with o1 h1
    split at h
    · next n hn =>
      pbind h with n' hn'
      injection h with h; subst h
      exact H.tree _ _ o1 _ hc h1 hn
    · injection h with h; subst h
      exact H.tree _ _ o1 _ hc h1 ho

theorem eval_ends' (hx : x.End) (hg : ∀ r, e r = true → (g r).ends e = true) :
    ∀ n, Ends e (eval g x n) := by
  intro n
  induction n with
  | zero => exact ⟨(fun _ _ _ _ h => by cases h), (fun _ _ _ _ _ h => by cases h)⟩
  | succ n ih => exact step_ends hx hg (eval_restores g x n) ih

end ends

/-! ### The tag of the root -/

section root
variable (t : R → Int)

/-- The tag of the root of any tree the parser returns. -/
def P.rootTag : P → Option Int
  | .alts tag _ => some tag
  | .seq tag _ => some tag
  | .tagIf tag _ => some tag
  | .star _ => some Tag.HOIST
  | .tok tag => some tag
  | .name => some Tag.TK_NAME
  | .letter => some Tag.TK_NAME
  | .literal _ => some Tag.TK_NAME
  | .peek _ => none
  | .neg p => p.rootTag
  | .opt p => p.rootTag
  | .rule r => some (t r)

/-- The tag given to what an extension matched. -/
def extTag (a : Bool) : Int := if a then Tag.SG_ACTION_STMT else Tag.SG_OTHER_SPECIFICATION_STMT

def Body.rootTag : Body → Option Int
  | .comb p => p.rootTag t
  | .expr tag _ => some tag
  | .parens => some Tag.HOIST
  | .listName => some Tag.TK_NAME
  | .procDesignator p => p.rootTag t
  | .withExts a p =>
    if p.rootTag t = some (extTag a) then p.rootTag t else none

end root

theorem coverBranches_tag {n m : SNode} (h : coverBranches n = .ok m) : m.tag = n.tag := by
  cases n with
  | node t r ks =>
    rw [coverBranches] at h
    split at h
    · injection h with h; subst h; rfl
    · rbind h with r' hr
      injection h with h; subst h; rfl

theorem hoistBack_tag (n : SNode) (d : Option SNode) : (hoistBack n d).tag = n.tag := by
  cases n with
  | node t r ks =>
    cases d with
    | none => rfl
    | some d =>
      cases d with
      | node dt dr dks =>
        rw [hoistBack]
        split <;> rfl

theorem seqLoop_tag {f : P → Strm → PRes Out} : ∀ ps s acc w, seqLoop f ps s acc = .ok w →
    w.1.tag = acc.tag := by
  intro ps
  induction ps with
  | nil => intro s acc w h; rw [seqLoop] at h; injection h with h; subst h; rfl
  | cons p ps ih =>
    intro s acc w h
    rw [seqLoop] at h
    pbind h with o ho
    split at h
    · rw [ih _ _ _ h, hoistBack_tag]
    · injection h with h; subst h; exact hoistBack_tag _ _

theorem starLoop_tag {f : P → Strm → PRes Out} {p : P} : ∀ k s acc w, starLoop f p k s acc = .ok w →
    w.1.tag = acc.tag := by
  intro k
  induction k with
  | zero => intro s acc w h; cases h
  | succ k ih =>
    intro s acc w h
    rw [starLoop] at h
    pbind h with o ho
    split at h
    · rw [ih _ _ _ h, hoistBack_tag]
    · injection h with h; subst h; exact hoistBack_tag _ _

section root
variable {g : R → Body} {x : Exts} {t : R → Int} {f : P → Strm → PRes Out}

theorem leaf_tag {tag : Int} {s : Strm} {o : Out} {n : SNode} (h : leaf tag s = .ok o)
    (hn : o.tree = some n) : n.tag = tag := by
  rw [leaf] at h
  rbind h with r hr
  injection h with h; subst h
  injection hn with hn; subst hn; rfl

theorem extLoop_tag {tag : Int} {m : Nat} : ∀ es s r n, extLoop tag m es s = .ok r → r.1 = some n →
    n.tag = tag := by
  intro es
  induction es with
  | nil => intro s r n h hn; rw [extLoop] at h; injection h with h; subst h; cases hn
  | cons e es ih =>
    intro s r n h hn
    rw [extLoop] at h
    rbind h with w hw
    split at h
    · rbind h with nd hnd
      injection h with h; subst h
      injection hn with hn; subst hn
      rw [coverBranches_tag hnd, hoistBack_tag]; rfl
    · exact ih _ _ _ h hn

theorem runBody_tag (H : ∀ p s o n u, p.rootTag t = some u → f p s = .ok o → o.tree = some n → n.tag = u)
    {k : Nat} {b : Body} {s : Strm} {r : Option SNode × Strm} {n : SNode} {u : Int}
    (hb : b.rootTag t = some u) (h : runBody x f k b s = .ok r) (hn : r.1 = some n) : n.tag = u := by
  cases b with
  | comb p =>
    rw [runBody] at h
    pbind h with o ho
    injection h with h; subst h
    exact H _ _ o n u hb ho hn
  | expr tag real =>
    injection hb with hb; subst hb
    rw [runBody, runExpr] at h
    pbind h with v hv
    split at h
    · injection h with h; subst h; cases hn
    · pbind h with w hw
      split at h
      · injection h with h; subst h; cases hn
      · injection h with h; subst h; cases hn
      · pbind h with nd hnd
        injection h with h; subst h
        injection hn with hn; subst hn
        exact coverBranches_tag (up_ok hnd)
  | parens =>
    injection hb with hb; subst hb
    rw [runBody, runParens] at h
    pbind h with v hv
    split at h
    · injection h with h; subst h; cases hn
    · pbind h with w hw
      pbind h with q hq
      pbind h with nd hnd
      injection h with h; subst h
      injection hn with hn; subst hn
      exact coverBranches_tag (up_ok hnd)
  | listName =>
    injection hb with hb; subst hb
    rw [runBody] at h
    have h := up_ok h
    rw [runListName] at h
    rbind h with v hv
    rbind h with b hb
    split at h
    · rbind h with nx hnx
      split at h
      · rbind h with w hw
        injection h with h; subst h
        injection hn with hn; subst hn; rfl
      · injection h with h; subst h; cases hn
    · injection h with h; subst h; cases hn
  | procDesignator p =>
    rw [runBody, runDesignator] at h
    pbind h with e he
    pbind h with q hq
    pbind h with o ho
    injection h with h; subst h
    exact H _ _ o n u hb ho hn
  | withExts a p =>
    rw [Body.rootTag] at hb
    split at hb
    · next hp =>
      rw [runBody] at h
      pbind h with o ho
      split at h
      · injection h with h; subst h
        exact H _ _ o n u hb ho hn
      · have h := up_ok h
        rw [hp] at hb
        injection hb with hb
        rw [runExts] at h
        rw [extTag] at hb
        cases a
        · rw [← hb]; exact extLoop_tag _ _ _ _ h hn
        · rw [← hb]; exact extLoop_tag _ _ _ _ h hn
    · cases hb

theorem step_tag (hg' : ∀ r, (g r).rootTag t = some (t r))
    (H : ∀ p s o n u, p.rootTag t = some u → f p s = .ok o → o.tree = some n → n.tag = u) {k : Nat} :
    ∀ p s o n u, p.rootTag t = some u → step g x f k p s = .ok o → o.tree = some n → n.tag = u := by
  intro p s o n u hp h hn
  cases p with
  | alts tag ps =>
    injection hp with hp; subst hp
    rw [step] at h
    pbind h with o1 h1
    split at h
    · pbind h with nd hnd
      injection h with h; subst h
      injection hn with hn; subst hn
      rw [coverBranches_tag (up_ok hnd), hoistBack_tag]; rfl
    · next hk =>
      injection h with h; subst h
      rw [altsLoop_tree _ _ _ h1 (by simpa using hk)] at hn
      cases hn
  | letter =>
    injection hp with hp; subst hp
    have h := up_ok h
    rw [runLetter] at h
    rbind h with v hv
    rbind h with b hb
    split at h
    · rbind h with tt htt
      split at h
      · injection h with h; subst h; cases hn
      · exact leaf_tag h hn
    · injection h with h; subst h; cases hn
  | literal w =>
    injection hp with hp; subst hp
    have h := up_ok h
    rw [runLiteral] at h
    rbind h with v hv
    rbind h with b hb
    split at h
    · rbind h with tt htt
      split at h
      · injection h with h; subst h; cases hn
      · exact leaf_tag h hn
    · injection h with h; subst h; cases hn
  | name =>
    injection hp with hp; subst hp
    have h := up_ok h
    rw [runName] at h
    rbind h with v hv
    rbind h with b hb
    split at h
    · exact leaf_tag h hn
    · injection h with h; subst h; cases hn
  | tok tag =>
    injection hp with hp; subst hp
    have h := up_ok h
    rw [runTok] at h
    rbind h with v hv
    split at h
    · injection h with h; subst h; cases hn
    · exact leaf_tag h hn
  | peek tag => cases hp
  | neg p =>
    rw [step] at h
    pbind h with o1 h1
    injection h with h; subst h
    exact H p s o1 n u hp h1 hn
  | opt p =>
    rw [step] at h
    pbind h with o1 h1
    injection h with h; subst h
    exact H p s o1 n u hp h1 hn
  | rule r =>
    injection hp with hp; subst hp
    rw [step] at h
    pbind h with w hw
    split at h
    · injection h with h; subst h; cases hn
    · next m hm =>
      injection h with h; subst h
      injection hn with hn; subst hn
      exact runBody_tag H (hg' r) hw hm
  | seq tag ps =>
    injection hp with hp; subst hp
    rw [step] at h
    pbind h with w hw
    split at h
    · pbind h with nd hnd
      injection h with h; subst h
      injection hn with hn; subst hn
      exact coverBranches_tag (up_ok hnd)
    · injection h with h; subst h; cases hn
  | star p =>
    injection hp with hp; subst hp
    rw [step] at h
    pbind h with w hw
    pbind h with nd hnd
    injection h with h; subst h
    injection hn with hn; subst hn
    rw [coverBranches_tag (up_ok hnd), starLoop_tag _ _ _ _ hw]; rfl
  | tagIf tag p =>
    injection hp with hp; subst hp
    rw [step] at h
    pbind h with o1 h1
    split at h
    · pbind h with nd hnd
      injection h with h; subst h
      injection hn with hn; subst hn
      rw [coverBranches_tag (up_ok hnd), hoistBack_tag]; rfl
    · next h2 =>
      injection h with h; subst h
      rw [h2] at hn; cases hn

theorem eval_tag (hg : ∀ r, (g r).rootTag t = some (t r)) : ∀ n p s o nd u, p.rootTag t = some u →
    eval g x n p s = .ok o → o.tree = some nd → nd.tag = u := by
  intro n
  induction n with
  | zero => intro p s o nd u _ h; cases h
  | succ n ih => exact step_tag hg ih

end root

/-! ### The tables for the grammar -/

/-- The root tags of the rules, given those of the rules they call. -/
def rootTags : Nat → R → Int
  | 0 => fun _ => 0
  | n + 1 => fun r => ((R.body r).rootTag (rootTags n)).getD 0

/-- The tag of the root of every tree a rule returns. -/
def R.rootTag : R → Int := rootTags 4

theorem grammar_rootTag (r : R) : (R.body r).rootTag R.rootTag = some r.rootTag := by
  have := R.forall_of (q := fun r => (R.body r).rootTag R.rootTag == some r.rootTag) (by decide +kernel) r
  simpa using this

theorem grammar_good (r : R) : (R.body r).good = true :=
  R.forall_of (q := fun r => (R.body r).good) (by decide +kernel) r

theorem grammar_treeRestores (r : R) (h : r ≠ .procedure_designator) : (R.body r).treeRestores = true := by
  have := R.forall_of (q := fun r => r == .procedure_designator || (R.body r).treeRestores)
    (by decide +kernel) r
  simpa [h] using this

/-- The rules that call `procedure_designator`, directly or not. -/
def R.designates : List R :=
  [.action_stmt, .alloc_opt, .allocate_object, .allocate_stmt, .allocation, .array_element,
   .assignment_stmt, .associate_stmt, .association, .call_stmt, .coindexed_named_object,
   .component_data_source, .component_def_stmt, .component_spec, .data_pointer_object, .data_ref,
   .data_stmt, .data_stmt_constant, .data_stmt_object, .data_stmt_repeat, .data_stmt_set,
   .data_stmt_value, .dealloc_opt, .deallocate_stmt, .designator, .equivalence_object,
   .equivalence_set, .equivalence_stmt, .event_post_stmt, .event_wait_stmt, .form_team_stmt,
   .forall_assignment_stmt, .forall_stmt, .function_reference, .if_stmt, .image_selector,
   .image_selector_spec, .input_item, .inquire_stmt, .io_implied_do, .io_implied_do_control,
   .io_implied_do_object, .lock_stmt, .nullify_stmt, .other_specification_stmt, .output_item,
   .parent_string, .part_ref, .pointer_assignment_stmt, .pointer_object, .print_stmt,
   .proc_component_def_stmt, .proc_component_ref, .proc_decl, .proc_pointer_init,
   .proc_pointer_object, .proc_target, .procedure_declaration_stmt, .procedure_designator,
   .read_stmt, .select_rank_stmt, .select_type_stmt, .selector, .structure_component,
   .structure_constructor, .substring, .sync_all_stmt, .sync_images_stmt, .sync_memory_stmt,
   .sync_stat, .sync_team_stmt, .unlock_stmt, .«variable», .wait_spec, .wait_stmt, .where_stmt,
   .write_stmt]

theorem grammar_calls (r : R) (h : (R.body r).calls (fun r => R.designates.contains r) = true) :
    R.designates.contains r = true := by
  have := R.forall_of (q := fun r => !(R.body r).calls (fun r => R.designates.contains r) ||
    R.designates.contains r) (by decide +kernel) r
  rw [h] at this
  simpa using this

/-- Rules whose match need not reach the end of the statement: everything that is not a statement,
and these. -/
def R.endsStmt (r : R) : Bool :=
  dispatchTable.any (fun q => q.2 == r) && r != .import_stmt && r != .interface_stmt &&
    r != .loop_control

theorem grammar_ends (r : R) (h : r.endsStmt = true) : (R.body r).ends R.endsStmt = true := by
  have := R.forall_of (q := fun r => !r.endsStmt || (R.body r).ends R.endsStmt) (by decide +kernel) r
  rw [h] at this
  simpa using this
end SP
end FLPR
