import Verif.StmtParser.Eval
import Verif.StmtParser.StreamLemmas
/-! # Lemmas about running statement parsers: streams keep their range, failing parsers restore it -/

namespace FLPR
namespace SP
open Spec

@[simp] theorem PRes.ok_bind {α β : Type} (a : α) (f : α → PRes β) :
    ((Except.ok a : PRes α) >>= f) = f a := rfl

@[simp] theorem PRes.error_bind {α β : Type} (e : PFail) (f : α → PRes β) :
    ((Except.error e : PRes α) >>= f) = .error e := rfl

theorem PRes.bind_ok {α β : Type} {x : PRes α} {f : α → PRes β} {b : β} (h : (x >>= f) = .ok b) :
    ∃ a, x = .ok a ∧ f a = .ok b := by
  cases x with
  | error e => simp at h
  | ok a => exact ⟨a, rfl, h⟩

theorem up_ok {α : Type} {x : Res α} {a : α} (h : up x = .ok a) : x = .ok a := by
  cases x with
  | error e => simp [up] at h
  | ok b => simpa [up] using h

@[simp] theorem up_of_ok {α : Type} (a : α) : up (.ok a : Res α) = .ok a := rfl

/-- Splits `h : (e >>= f) = .ok b` for parser results. -/
macro "pbind " h:ident " with " x:rcasesPat hx:ident : tactic =>
  `(tactic| (obtain ⟨$x, $hx, hTmp⟩ := PRes.bind_ok $h; clear $h; rename' hTmp => $h))

/-- The same stream but for its position. -/
def Frame (s t : Strm) : Prop := t.all = s.all ∧ t.lo = s.lo ∧ t.hi = s.hi

theorem Frame.refl (s : Strm) : Frame s s := ⟨rfl, rfl, rfl⟩
theorem Frame.goto (s : Strm) (p : Nat) : Frame s (s.goto p) := ⟨rfl, rfl, rfl⟩
theorem Frame.trans {s t u : Strm} (h1 : Frame s t) (h2 : Frame t u) : Frame s u :=
  ⟨h2.1.trans h1.1, h2.2.1.trans h1.2.1, h2.2.2.trans h1.2.2⟩
theorem Frame.eq_goto {s t : Strm} (h : Frame s t) : t = s.goto t.pos := by
  obtain ⟨h1, h2, h3⟩ := h
  cases t; cases s; simp_all [Strm.goto]

theorem digest_ok {s s' : Strm} {n : Nat} {r : Nat × Nat} (h : s.digest n = .ok (r, s')) :
    s' = s.goto (s.pos + n) ∧ r = (s.pos, s.pos + n) ∧ s.pos + n ≤ s.all.length + 1 := by
  rw [Strm.digest, Strm.consume] at h
  by_cases hl : s.pos + n ≤ s.all.length + 1
  · rw [if_pos hl] at h
    rw [Res.ok_bind, Strm.mkRange, if_pos (by simp; omega), Res.ok_bind] at h
    injection h with h; injection h with h1 h2
    exact ⟨h2.symm, h1.symm, hl⟩
  · rw [if_neg hl] at h
    simp at h

theorem digest_of {s : Strm} {n : Nat} (h : s.pos + n ≤ s.all.length + 1) :
    s.digest n = .ok ((s.pos, s.pos + n), s.goto (s.pos + n)) := by
  rw [Strm.digest, Strm.consume, if_pos h, Res.ok_bind, Strm.mkRange, if_pos (by simp; omega),
    Res.ok_bind]
  rfl

theorem leaf_ok {tag : Int} {s : Strm} {o : Out} (h : leaf tag s = .ok o) :
    o = ⟨some (.node tag (some (s.pos, s.pos + 1)) []), true, s.goto (s.pos + 1)⟩ ∧
      s.pos + 1 ≤ s.all.length + 1 := by
  rw [leaf] at h
  rbind h with ⟨r, s'⟩ hr
  obtain ⟨rfl, rfl, hl⟩ := digest_ok hr
  injection h with h
  exact ⟨h.symm, hl⟩

/-- What a leaf parser does: no match and nothing changed, or one token taken. -/
def LeafOut (s : Strm) (o : Out) : Prop :=
  o = noMatch s ∨ (∃ tag, o = ⟨some (.node tag (some (s.pos, s.pos + 1)) []), true, s.goto (s.pos + 1)⟩ ∧
    s.pos + 1 ≤ s.all.length + 1)

theorem noMatch_ok {s : Strm} {o : Out} (h : (Except.ok (noMatch s) : Res Out) = .ok o) :
    LeafOut s o := by
  injection h with h
  exact .inl h.symm

theorem leaf_out {tag : Int} {s : Strm} {o : Out} (h : leaf tag s = .ok o) : LeafOut s o :=
  .inr ⟨tag, leaf_ok h⟩

theorem runLetter_out {s : Strm} {o : Out} (h : runLetter s = .ok o) : LeafOut s o := by
  rw [runLetter] at h
  rbind h with t ht
  rbind h with b hb
  split at h
  · rbind h with tt htt
    split at h
    · exact noMatch_ok h
    · exact leaf_out h
  · exact noMatch_ok h

theorem runLiteral_out {w : Str} {s : Strm} {o : Out} (h : runLiteral w s = .ok o) : LeafOut s o := by
  rw [runLiteral] at h
  rbind h with t ht
  rbind h with b hb
  split at h
  · rbind h with tt htt
    split at h
    · exact noMatch_ok h
    · exact leaf_out h
  · exact noMatch_ok h

theorem runName_out {s : Strm} {o : Out} (h : runName s = .ok o) : LeafOut s o := by
  rw [runName] at h
  rbind h with t ht
  rbind h with b hb
  split at h
  · exact leaf_out h
  · exact noMatch_ok h

theorem runTok_out {tag : Int} {s : Strm} {o : Out} (h : runTok tag s = .ok o) : LeafOut s o := by
  rw [runTok] at h
  rbind h with t ht
  split at h
  · exact noMatch_ok h
  · exact leaf_out h

theorem runPeek_out {tag : Int} {s : Strm} {o : Out} (h : runPeek tag s = .ok o) :
    o.s = s ∧ o.tree = none ∧ (o.ok = true → s.peek = .ok tag) := by
  rw [runPeek] at h
  rbind h with t ht
  injection h with h
  subst h
  refine ⟨rfl, rfl, fun h => ?_⟩
  have h' : tag = t := by simpa using h
  rw [ht, h']

/-- The stream afterwards: the same tokens and bounds and, when `m`, not before where it was. -/
structure Adv (m : Bool) (s t : Strm) : Prop where
  frame : Frame s t
  fwd : m = true → s.pos ≤ t.pos
  bnd : m = true → s.pos ≤ s.all.length + 1 → t.pos ≤ s.all.length + 1

theorem Adv.refl (m : Bool) (s : Strm) : Adv m s s := ⟨.refl s, fun _ => le_refl _, fun _ h => h⟩

theorem Adv.trans {m : Bool} {s t u : Strm} (h1 : Adv m s t) (h2 : Adv m t u) : Adv m s u := by
  refine ⟨h1.frame.trans h2.frame, fun hm => le_trans (h1.fwd hm) (h2.fwd hm), fun hm hs => ?_⟩
  have := h2.bnd hm
  rw [h1.frame.1] at this
  exact this (h1.bnd hm hs)

theorem Adv.goto {m : Bool} {s : Strm} {p : Nat} (h1 : s.pos ≤ p) (h2 : p ≤ s.all.length + 1) :
    Adv m s (s.goto p) := ⟨.goto s p, fun _ => h1, fun _ _ => h2⟩

theorem Adv.rewind {m : Bool} {s t : Strm} (h : Adv m s t) : Adv m s (t.goto s.pos) := by
  rw [h.frame.eq_goto, Strm.goto_goto, Strm.goto_self]
  exact .refl m s

theorem LeafOut.adv {m : Bool} {s : Strm} {o : Out} (h : LeafOut s o) : Adv m s o.s := by
  rcases h with rfl | ⟨tag, rfl, hl⟩
  · exact .refl m s
  · exact .goto (by omega) hl

/-- Extensions that match do not move the stream backwards or past its end. -/
def Exts.Forward (x : Exts) : Prop :=
  ∀ e ∈ x.action ++ x.other, ∀ s t q, e s = .ok (some t, q) → s.pos ≤ q ∧ q ≤ s.all.length + 1

section adv

variable {g : R → Body} {x : Exts} {m : Bool} {f : P → Strm → PRes Out}

theorem altsLoop_adv (hf : ∀ p s o, f p s = .ok o → Adv m s o.s) :
    ∀ ps s o, altsLoop f ps s = .ok o → Adv m s o.s := by
  intro ps
  induction ps with
  | nil => intro s o h; rw [altsLoop] at h; injection h with h; subst h; exact .refl m s
  | cons p ps ih =>
    intro s o h
    rw [altsLoop] at h
    pbind h with o1 h1
    split at h
    · injection h with h; subst h; exact hf _ _ _ h1
    · exact (hf _ _ _ h1).trans (ih _ _ h)

theorem seqLoop_adv (hf : ∀ p s o, f p s = .ok o → Adv m s o.s) :
    ∀ ps s acc r, seqLoop f ps s acc = .ok r → Adv m s r.2.2 := by
  intro ps
  induction ps with
  | nil => intro s acc r h; rw [seqLoop] at h; injection h with h; subst h; exact .refl m s
  | cons p ps ih =>
    intro s acc r h
    rw [seqLoop] at h
    pbind h with o1 h1
    split at h
    · exact (hf _ _ _ h1).trans (ih _ _ _ h)
    · injection h with h; subst h; exact hf _ _ _ h1

theorem starLoop_adv (hf : ∀ p s o, f p s = .ok o → Adv m s o.s) (p : P) :
    ∀ k s acc r, starLoop f p k s acc = .ok r → Adv m s r.2 := by
  intro k
  induction k with
  | zero => intro s acc r h; simp [starLoop] at h
  | succ k ih =>
    intro s acc r h
    rw [starLoop] at h
    pbind h with o1 h1
    split at h
    · exact (hf _ _ _ h1).trans (ih _ _ _ h)
    · injection h with h; subst h; exact hf _ _ _ h1

theorem digest_adv {s s' : Strm} {n : Nat} {r : Nat × Nat} (h : s.digest n = .ok (r, s')) :
    Adv m s s' := by
  obtain ⟨rfl, rfl, hl⟩ := digest_ok h
  exact .goto (by omega) hl

theorem untilBreak_adv (hf : ∀ p s o, f p s = .ok o → Adv m s o.s) (real : P) :
    ∀ k s d ks r, untilBreak f real k s d ks = .ok r → Adv m s r.2 := by
  intro k
  induction k with
  | zero => intro s d ks r h; simp [untilBreak] at h
  | succ k ih =>
    intro s d ks r h
    rw [untilBreak] at h
    pbind h with t ht
    split at h
    · injection h with h; subst h; exact .refl m s
    · injection h with h; subst h; exact .refl m s
    · split at h
      · pbind h with o ho
        pbind h with ks' hk
        exact (hf _ _ _ ho).trans (ih _ _ _ _ h)
      · pbind h with q hq
        obtain ⟨q1, q2⟩ := q
        exact (digest_adv (up_ok hq)).trans (ih _ _ _ _ h)

theorem parensLoop_adv : ∀ k s d ks r, parensLoop k s d ks = .ok r → Adv m s r.2 := by
  intro k
  induction k with
  | zero => intro s d ks r h; simp [parensLoop] at h
  | succ k ih =>
    intro s d ks r h
    rw [parensLoop] at h
    split at h
    · pbind h with t ht
      split at h
      · pbind h with q hq
        obtain ⟨q1, q2⟩ := q
        exact (digest_adv (up_ok hq)).trans (ih _ _ _ _ h)
      · split at h
        · pbind h with q hq
          obtain ⟨q1, q2⟩ := q
          exact (digest_adv (up_ok hq)).trans (ih _ _ _ _ h)
        · split at h
          · simp at h
          · pbind h with q hq
            obtain ⟨q1, q2⟩ := q
            exact (digest_adv (up_ok hq)).trans (ih _ _ _ _ h)
    · injection h with h; subst h; exact .refl m s

theorem runExpr_adv (hf : ∀ p s o, f p s = .ok o → Adv m s o.s) {k : Nat} {tag : Int} {real : P}
    {s : Strm} {r : Option SNode × Strm} (h : runExpr f k tag real s = .ok r) : Adv m s r.2 := by
  rw [runExpr] at h
  pbind h with t ht
  split at h
  · injection h with h; subst h; exact .refl m s
  · pbind h with q hq
    have ha := untilBreak_adv hf real _ _ _ _ _ hq
    split at h
    · injection h with h; subst h; exact .refl m s
    · injection h with h; subst h; exact ha
    · pbind h with n hn
      injection h with h; subst h; exact ha

theorem runParens_adv {k : Nat} {s : Strm} {r : Option SNode × Strm} (h : runParens k s = .ok r) :
    Adv m s r.2 := by
  rw [runParens] at h
  pbind h with t ht
  split at h
  · injection h with h; subst h; exact .refl m s
  · pbind h with q hq
    obtain ⟨q1, q2⟩ := q
    pbind h with w hw
    pbind h with n hn
    injection h with h; subst h
    exact (digest_adv (up_ok hq)).trans (parensLoop_adv _ _ _ _ _ hw)

theorem runListName_adv {s : Strm} {r : Option SNode × Strm} (h : runListName s = .ok r) :
    Adv m s r.2 := by
  rw [runListName] at h
  rbind h with t ht
  rbind h with b hb
  split at h
  · rbind h with nx hnx
    split at h
    · rbind h with q hq
      obtain ⟨q1, q2⟩ := q
      injection h with h; subst h
      exact digest_adv hq
    · injection h with h; subst h; exact .refl m s
  · injection h with h; subst h; exact .refl m s

theorem openLoop_frame : ∀ n s d r, Strm.openLoop n s d = .ok r → Frame s r.2 := by
  intro n
  induction n with
  | zero => intro s d r h; simp [Strm.openLoop] at h
  | succ n ih =>
    intro s d r h
    rw [Strm.openLoop] at h
    split at h
    · rbind h with s' hs
      have hfr : Frame s s' := by
        rw [Strm.putBack] at hs
        split at hs
        · split at hs
          · simp at hs
          · injection hs with hs; subst hs; exact .goto _ _
        · injection hs with hs; subst hs; exact .refl s
      rbind h with t ht
      split at h
      · exact hfr.trans (ih _ _ _ h)
      · split at h
        · exact hfr.trans (ih _ _ _ h)
        · split at h
          · injection h with h; subst h; exact hfr
          · exact hfr.trans (ih _ _ _ h)
    · injection h with h; subst h; exact .refl s

theorem designatorEnd_frame {s e : Strm} (h : designatorEnd s = .ok e) : Frame s e := by
  rw [designatorEnd] at h
  rbind h with r hr
  have hfr : Frame s r.2 := by
    rw [Strm.moveToOpenParen] at hr
    rbind hr with t ht
    split at hr
    · injection hr with hr; subst hr; exact .goto _ _
    · rbind hr with q hq
      injection hr with hr; subst hr
      exact Frame.trans (.goto s s.hi) (openLoop_frame _ _ _ _ hq)
  split at h
  · rw [Strm.putBack] at h
    split at h
    · split at h
      · simp at h
      · injection h with h; subst h; exact hfr.trans (.goto _ _)
    · injection h with h; subst h; exact hfr
  · injection h with h; subst h; exact hfr

theorem runDesignator_adv {p : P} {s : Strm} {r : Option SNode × Strm}
    (h : runDesignator f p s = .ok r) : Adv m s r.2 := by
  rw [runDesignator] at h
  pbind h with e he
  pbind h with q hq
  pbind h with o ho
  injection h with h; subst h
  have hfr := designatorEnd_frame (up_ok he)
  have hq := up_ok hq
  rw [Strm.mkRange] at hq
  split at hq
  · next hl =>
    show Adv m s e
    rw [hfr.eq_goto]
    exact .goto hl.1 hl.2
  · simp at hq

theorem extLoop_adv {tag : Int} {s : Strm} : ∀ (es : List Ext) (r : Option SNode × Strm),
    (m = true → ∀ e ∈ es, ∀ s t q, e s = .ok (some t, q) → s.pos ≤ q ∧ q ≤ s.all.length + 1) →
    extLoop tag s.pos es s = .ok r → Adv m s r.2 := by
  intro es
  induction es with
  | nil => intro r _ h; rw [extLoop] at h; injection h with h; subst h; exact .refl m s
  | cons e es ih =>
    intro r hx h
    rw [extLoop] at h
    rbind h with q hq
    obtain ⟨q1, q2⟩ := q
    cases q1 with
    | some st =>
      simp only at h
      rbind h with n hn
      injection h with h; subst h
      exact ⟨.goto _ _, fun hm => (hx hm e (by simp) _ _ _ hq).1,
        fun hm _ => (hx hm e (by simp) _ _ _ hq).2⟩
    | none =>
      simp only [Strm.goto_goto, Strm.goto_self] at h
      exact ih r (fun hm e he => hx hm e (by simp [he])) h

theorem runBody_adv (hx : m = true → x.Forward) (hf : ∀ p s o, f p s = .ok o → Adv m s o.s)
    {k : Nat} {b : Body} {s : Strm} {r : Option SNode × Strm} (h : runBody x f k b s = .ok r) :
    Adv m s r.2 := by
  cases b with
  | comb p =>
    rw [runBody] at h
    pbind h with o ho
    injection h with h; subst h
    exact hf _ _ _ ho
  | expr tag real => exact runExpr_adv hf h
  | parens => exact runParens_adv h
  | listName => exact runListName_adv (up_ok h)
  | procDesignator p => exact runDesignator_adv h
  | withExts a p =>
    rw [runBody] at h
    pbind h with o ho
    split at h
    · injection h with h; subst h; exact hf _ _ _ ho
    · refine (hf _ _ _ ho).trans ?_
      have h := up_ok h
      rw [runExts] at h
      split at h
      · exact extLoop_adv _ _ (fun hm e he => hx hm e (by simp [he])) h
      · exact extLoop_adv _ _ (fun hm e he => hx hm e (by simp [he])) h

theorem step_adv (hx : m = true → x.Forward) (hf : ∀ p s o, f p s = .ok o → Adv m s o.s)
    {k : Nat} {p : P} {s : Strm} {o : Out} (h : step g x f k p s = .ok o) : Adv m s o.s := by
  cases p with
  | alts tag ps =>
    rw [step] at h
    pbind h with o1 h1
    have ha := altsLoop_adv hf _ _ _ h1
    split at h
    · pbind h with n hn
      injection h with h; subst h; exact ha
    · injection h with h; subst h; exact ha
  | letter => exact (runLetter_out (up_ok h)).adv
  | literal w => exact (runLiteral_out (up_ok h)).adv
  | name => exact (runName_out (up_ok h)).adv
  | neg p =>
    rw [step] at h
    pbind h with o1 h1
    injection h with h; subst h
    exact hf _ _ o1 h1
  | opt p =>
    rw [step] at h
    pbind h with o1 h1
    injection h with h; subst h
    exact hf _ _ o1 h1
  | peek t =>
    rw [(runPeek_out (up_ok h)).1]
    exact .refl m s
  | rule r =>
    rw [step] at h
    pbind h with o1 h1
    have ha := runBody_adv hx hf h1
    split at h
    · injection h with h; subst h; exact ha.rewind
    · injection h with h; subst h; exact ha
  | seq tag ps =>
    rw [step] at h
    pbind h with r hr
    have ha := seqLoop_adv hf _ _ _ _ hr
    split at h
    · pbind h with n hn
      injection h with h; subst h; exact ha
    · injection h with h; subst h; exact ha.rewind
  | star p =>
    rw [step] at h
    pbind h with r hr
    pbind h with n hn
    injection h with h; subst h
    exact starLoop_adv hf _ _ _ _ _ hr
  | tagIf tag p =>
    rw [step] at h
    pbind h with o1 h1
    split at h
    · pbind h with n hn
      injection h with h; subst h; exact hf _ _ o1 h1
    · injection h with h; subst h; exact hf _ _ _ h1
  | tok t => exact (runTok_out (up_ok h)).adv

theorem eval_adv (hx : m = true → x.Forward) : ∀ n p s o, eval g x n p s = .ok o → Adv m s o.s := by
  intro n
  induction n with
  | zero => intro p s o h; simp [eval] at h
  | succ n ih => intro p s o h; exact step_adv hx ih h

theorem eval_frame {n : Nat} {p : P} {s : Strm} {o : Out} (h : eval g x n p s = .ok o) :
    Frame s o.s := (eval_adv (m := false) (by simp) n p s o h).frame

end adv

/-! ### Failing parsers restore the stream -/

mutual
/-- Terms whose failure can be relied upon: a negation is looked at directly only over `peek`. -/
def P.restores : P → Bool
  | .alts _ ps => P.restoresAll ps
  | .neg (.peek _) => true
  | .neg _ => false
  | .tagIf _ p => p.restores
  | _ => true
def P.restoresAll : List P → Bool
  | [] => true
  | p :: ps => p.restores && P.restoresAll ps
end

/-- No match: the stream is where it was and there is no tree. -/
def Restored (s : Strm) (o : Out) : Prop := o.ok = false → o.s = s ∧ o.tree = none

theorem LeafOut.restored {s : Strm} {o : Out} (h : LeafOut s o) : Restored s o := by
  rcases h with rfl | ⟨tag, rfl, hl⟩
  · intro _; exact ⟨rfl, rfl⟩
  · intro h; simp at h

theorem altsLoop_restores {f : P → Strm → PRes Out}
    (hf : ∀ p s o, p.restores = true → f p s = .ok o → Restored s o) :
    ∀ ps s o, P.restoresAll ps = true → altsLoop f ps s = .ok o → Restored s o := by
  intro ps
  induction ps with
  | nil => intro s o _ h; rw [altsLoop] at h; injection h with h; subst h; intro _; exact ⟨rfl, rfl⟩
  | cons p ps ih =>
    intro s o hp h
    rw [P.restoresAll, Bool.and_eq_true] at hp
    rw [altsLoop] at h
    pbind h with o1 h1
    by_cases hok : o1.ok = true
    · rw [if_pos hok] at h
      injection h with h; subst h
      exact hf _ _ _ hp.1 h1
    · rw [if_neg hok] at h
      have := hf _ _ _ hp.1 h1 (by simpa using hok)
      rw [this.1] at h
      exact ih _ _ hp.2 h

theorem eval_restores (g : R → Body) (x : Exts) : ∀ n p s o, p.restores = true →
    eval g x n p s = .ok o → Restored s o := by
  intro n
  induction n with
  | zero => intro p s o _ h; simp [eval] at h
  | succ n ih =>
    intro p s o hp h
    have h0 := h
    rw [eval] at h
    cases p with
    | alts tag ps =>
      rw [P.restores] at hp
      rw [step] at h
      pbind h with o1 h1
      split at h
      · pbind h with n hn
        injection h with h; subst h
        intro h; simp at h
      · injection h with h; subst h; exact altsLoop_restores ih _ _ _ hp h1
    | letter => exact (runLetter_out (up_ok h)).restored
    | literal w => exact (runLiteral_out (up_ok h)).restored
    | name => exact (runName_out (up_ok h)).restored
    | neg p =>
      cases p with
      | peek t =>
        rw [step] at h
        pbind h with o1 h1
        injection h with h; subst h
        intro _
        cases n with
        | zero => simp [eval] at h1
        | succ n =>
          rw [eval, step] at h1
          have := runPeek_out (up_ok h1)
          exact ⟨this.1, this.2.1⟩
      | _ => simp [P.restores] at hp
    | opt p =>
      rw [step] at h
      pbind h with o1 h1
      injection h with h; subst h
      intro h; simp at h
    | peek t =>
      have := runPeek_out (up_ok h)
      exact fun _ => ⟨this.1, this.2.1⟩
    | rule r =>
      have hfr := eval_frame h0
      rw [step] at h
      pbind h with o1 h1
      split at h
      · injection h with h; subst h
        intro _
        refine ⟨?_, rfl⟩
        have := hfr.eq_goto
        simpa using this
      · injection h with h; subst h
        intro h; simp at h
    | seq tag ps =>
      have hfr := eval_frame h0
      rw [step] at h
      pbind h with r hr
      split at h
      · pbind h with n hn
        injection h with h; subst h
        intro h; simp at h
      · injection h with h; subst h
        intro _
        refine ⟨?_, rfl⟩
        have := hfr.eq_goto
        simpa using this
    | star p =>
      rw [step] at h
      pbind h with r hr
      pbind h with n hn
      injection h with h; subst h
      intro h; simp at h
    | tagIf tag p =>
      rw [P.restores] at hp
      rw [step] at h
      pbind h with o1 h1
      split at h
      · next t ht =>
        pbind h with n hn
        injection h with h; subst h
        intro h
        have := (ih _ _ _ hp h1 h).2
        rw [ht] at this
        simp at this
      · injection h with h; subst h; exact ih _ _ _ hp h1
    | tok t => exact (runTok_out (up_ok h)).restored

end SP
end FLPR
