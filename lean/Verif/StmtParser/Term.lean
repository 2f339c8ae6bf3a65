import Verif.StmtParser.EvalLemmas
import Verif.StmtParser.Grammar
import Verif.StmtParser.Ranks
/-!
# Every statement parser returns

Two static facts about a grammar are used: which rules take a token whenever they return a tree, and
that before a rule has taken a token it only calls rules of lower rank.
-/

namespace FLPR
namespace SP

/-! ### Taking a token -/

/-- At least one token has been taken, within the tokens of the line and the element behind them. -/
def Took (s t : Strm) : Prop := s.pos < t.pos ∧ t.pos ≤ s.all.length + 1

theorem Took.trans_adv {s t u : Strm} (h1 : Adv true s t) (h2 : Took t u) : Took s u := by
  have := h1.fwd rfl
  have e := h1.frame.1
  obtain ⟨a, b⟩ := h2
  exact ⟨by omega, by rw [← e]; exact b⟩

theorem Took.adv_trans {s t u : Strm} (he : t.all = s.all) (h1 : Took s t) (h2 : Adv true t u) : Took s u := by
  obtain ⟨a, b⟩ := h1
  have h3 := h2.fwd rfl
  have h4 := h2.bnd rfl (by rw [he]; exact b)
  rw [he] at h4
  exact ⟨by omega, h4⟩

theorem digest_took {s s' : Strm} {r : Nat × Nat} (h : s.digest 1 = .ok (r, s')) : Took s s' := by
  obtain ⟨rfl, _, h3⟩ := digest_ok h
  exact ⟨by simp, by simpa using h3⟩

theorem LeafOut.took {s : Strm} {o : Out} (h : LeafOut s o) (ho : o.ok = true) : Took s o.s := by
  rcases h with rfl | ⟨tag, rfl, hl⟩
  · cases ho
  · exact ⟨by simp, by simpa using hl⟩

theorem LeafOut.took' {s : Strm} {o : Out} {n : SNode} (h : LeafOut s o) (ho : o.tree = some n) :
    Took s o.s := by
  rcases h with rfl | ⟨tag, rfl, hl⟩
  · cases ho
  · exact ⟨by simp, by simpa using hl⟩

section takes
variable (c : R → Bool)

mutual
/-- A match takes a token. -/
def P.takes : P → Bool
  | .alts _ ps => P.takesAll ps
  | .seq _ ps => P.takesAny ps
  | .tagIf _ p => p.takes
  | .rule r => c r
  | .tok _ => true
  | .name => true
  | .letter => true
  | .literal _ => true
  | .peek _ => false
  | .neg _ => false
  | .opt _ => false
  | .star _ => false
def P.takesAll : List P → Bool
  | [] => true
  | p :: ps => p.takes && P.takesAll ps
def P.takesAny : List P → Bool
  | [] => false
  | p :: ps => p.takes || P.takesAny ps
end

/-- A tree means a token has been taken. -/
def P.treeTakes : P → Bool
  | .peek _ => true
  | .star _ => false
  | .opt p => p.treeTakes
  | .neg p => p.treeTakes
  | .tagIf _ p => p.treeTakes
  | p => p.takes c

def Body.takes : Body → Bool
  | .comb p => p.treeTakes c
  | .expr _ real => real.treeTakes c
  | .parens => true
  | .listName => true
  | .procDesignator _ => false
  | .withExts _ _ => false

end takes

section took
variable {g : R → Body} {x : Exts} {c : R → Bool} {f : P → Strm → PRes Out}

/-- What is known of the inner parsers. -/
structure Takes (c : R → Bool) (f : P → Strm → PRes Out) : Prop where
  adv : ∀ p s o, f p s = .ok o → Adv true s o.s
  ok : ∀ p s o, p.takes c = true → f p s = .ok o → o.ok = true → Took s o.s
  tree : ∀ p s o n, p.treeTakes c = true → f p s = .ok o → o.tree = some n → Took s o.s

theorem altsLoop_takes (H : Takes c f) : ∀ ps s o, P.takesAll c ps = true →
    altsLoop f ps s = .ok o → o.ok = true → Took s o.s := by
  intro ps
  induction ps with
  | nil => intro s o _ h ho; rw [altsLoop] at h; injection h with h; subst h; cases ho
  | cons p ps ih =>
    intro s o hc h ho
    rw [P.takesAll, Bool.and_eq_true] at hc
    rw [altsLoop] at h
    pbind h with o1 h1
    split at h
    · next hok => injection h with h; subst h; exact H.ok _ _ _ hc.1 h1 ho
    · exact (ih _ _ hc.2 h ho).trans_adv (H.adv _ _ _ h1)

theorem altsLoop_tree : ∀ ps s o, altsLoop f ps s = .ok o → o.ok = false → o.tree = none := by
  intro ps
  induction ps with
  | nil => intro s o h ho; rw [altsLoop] at h; injection h with h; subst h; rfl
  | cons p ps ih =>
    intro s o h ho
    rw [altsLoop] at h
    pbind h with o1 h1
    split at h
    · next hok => injection h with h; subst h; rw [hok] at ho; cases ho
    · exact ih _ _ h ho

theorem seqLoop_takes (H : Takes c f) : ∀ ps s acc w, P.takesAny c ps = true →
    seqLoop f ps s acc = .ok w → w.2.1 = true → Took s w.2.2 := by
  intro ps
  induction ps with
  | nil => intro s acc w hc; cases hc
  | cons p ps ih =>
    intro s acc w hc h hw
    rw [P.takesAny, Bool.or_eq_true] at hc
    rw [seqLoop] at h
    pbind h with o h1
    split at h
    · next hok =>
      rcases hc with hc | hc
      · exact (H.ok _ _ _ hc h1 hok).adv_trans (H.adv _ _ _ h1).frame.1 (seqLoop_adv H.adv _ _ _ _ h)
      · exact (ih _ _ _ hc h hw).trans_adv (H.adv _ _ _ h1)
    · injection h with h; subst h; cases hw

theorem untilBreak_takes (H : Takes c f) {real : P} (hr : real.treeTakes c = true) :
    ∀ k s d ks w, untilBreak f real k s d ks = .ok w → w.1 = none ∨ w.1 = some ks ∨ Took s w.2 := by
  intro k
  induction k with
  | zero => intro s d ks w h; cases h
  | succ k ih =>
    intro s d ks w h
    have hadv := untilBreak_adv (m := true) H.adv real (k + 1) s d ks w h
    rw [untilBreak] at h
    pbind h with t ht
    split at h
    · injection h with h; subst h; exact .inr (.inl rfl)
    · injection h with h; subst h; exact .inl rfl
    · split at h
      · pbind h with o ho
        pbind h with ks' hks
        have hn := up_ok hks
        cases htree : o.tree with
        | none => rw [htree, graftBack] at hn; cases hn
        | some nd =>
          exact .inr (.inr ((H.tree _ _ _ _ hr ho htree).adv_trans (H.adv _ _ _ ho).frame.1
            (untilBreak_adv H.adv real _ _ _ _ _ h)))
      · pbind h with r hd
        have hd := up_ok hd
        exact .inr (.inr ((digest_took hd).adv_trans (digest_adv (m := true) hd).frame.1
          (untilBreak_adv H.adv real _ _ _ _ _ h)))

theorem runBody_takes (H : Takes c f) {k : Nat} {b : Body} {s : Strm}
    {r : Option SNode × Strm} {n : SNode} (hc : b.takes c = true) (h : runBody x f k b s = .ok r)
    (hn : r.1 = some n) : Took s r.2 := by
  cases b with
  | comb p =>
    rw [runBody] at h
    pbind h with o ho
    injection h with h; subst h
    exact H.tree _ _ _ _ hc ho hn
  | expr tag real =>
    rw [runBody, runExpr] at h
    pbind h with t ht
    split at h
    · injection h with h; subst h; cases hn
    · pbind h with w hw
      have := untilBreak_takes H hc _ _ _ _ _ hw
      split at h
      · injection h with h; subst h; cases hn
      · injection h with h; subst h; cases hn
      · next ks hk hks =>
        pbind h with nd hnd
        injection h with h; subst h
        rcases this with e | e | e
        · rw [e] at hks; cases hks
        · rw [e] at hks; injection hks with hks; exact absurd hks.symm hk
        · exact e
  | parens =>
    rw [runBody, runParens] at h
    pbind h with t ht
    split at h
    · injection h with h; subst h; cases hn
    · pbind h with w hw
      have hw := up_ok hw
      pbind h with q hq
      pbind h with nd hnd
      injection h with h; subst h
      exact (digest_took hw).adv_trans (digest_adv (m := true) hw).frame.1 (parensLoop_adv _ _ _ _ _ hq)
  | listName =>
    rw [runBody] at h
    have h := up_ok h
    rw [runListName] at h
    rbind h with t ht
    rbind h with b hb
    split at h
    · rbind h with nx hnx
      split at h
      · rbind h with w hw
        injection h with h; subst h
        exact digest_took hw
      · injection h with h; subst h; cases hn
    · injection h with h; subst h; cases hn
  | procDesignator p => cases hc
  | withExts a p => cases hc

theorem step_takes (hx : x.Forward) (hg : ∀ r, c r = true → (g r).takes c = true) (H : Takes c f)
    {k : Nat} : Takes c (step g x f k) := by
  have hadv : ∀ p s o, step g x f k p s = .ok o → Adv true s o.s :=
    fun p s o h => step_adv (fun _ => hx) H.adv h
  have hok : ∀ p s o, p.takes c = true → step g x f k p s = .ok o → o.ok = true → Took s o.s := by
    intro p s o hc h ho
    cases p with
    | alts tag ps =>
      rw [P.takes] at hc
      rw [step] at h
      pbind h with o1 h1
      split at h
      · next hk =>
        pbind h with n hn
        injection h with h; subst h
        exact altsLoop_takes H _ _ o1 hc h1 hk
      · injection h with h; subst h; exact altsLoop_takes H _ _ _ hc h1 ho
    | letter => exact (runLetter_out (up_ok h)).took ho
    | literal w => exact (runLiteral_out (up_ok h)).took ho
    | name => exact (runName_out (up_ok h)).took ho
    | tok t => exact (runTok_out (up_ok h)).took ho
    | neg p => cases hc
    | opt p => cases hc
    | peek t => cases hc
    | star p => cases hc
    | rule r =>
      rw [P.takes] at hc
      rw [step] at h
      pbind h with w hw
      split at h
      · injection h with h; subst h; cases ho
      · next n hn =>
        injection h with h; subst h
        exact runBody_takes H (hg r hc) hw hn
    | seq tag ps =>
      rw [P.takes] at hc
      rw [step] at h
      pbind h with w hw
      split at h
      · next hk =>
        pbind h with n hn
        injection h with h; subst h
        exact seqLoop_takes H _ _ _ _ hc hw hk
      · injection h with h; subst h; cases ho
    | tagIf tag p =>
      rw [P.takes] at hc
      rw [step] at h
      pbind h with o1 h1
      split at h
      · pbind h with n hn
        injection h with h; subst h
        exact H.ok _ _ o1 hc h1 ho
      · injection h with h; subst h
        exact H.ok _ _ o1 hc h1 ho
  refine ⟨hadv, hok, ?_⟩
  intro p s o n hc h ho
  cases p with
  | alts tag ps =>
    have hk : o.ok = true := by
      rw [step] at h
      pbind h with o1 h1
      split at h
      · next hk =>
        pbind h with n hn
        injection h with h; subst h
        rfl
      · next hk =>
        injection h with h; subst h
        rw [altsLoop_tree _ _ _ h1 (by simpa using hk)] at ho
        cases ho
    exact hok _ _ _ hc h hk
  | letter => exact (runLetter_out (up_ok h)).took' ho
  | literal w => exact (runLiteral_out (up_ok h)).took' ho
  | name => exact (runName_out (up_ok h)).took' ho
  | tok t => exact (runTok_out (up_ok h)).took' ho
  | neg p =>
    rw [step] at h
    pbind h with o1 h1
    injection h with h; subst h
    rw [P.treeTakes] at hc
    exact H.tree p _ o1 _ hc h1 ho
  | opt p =>
    rw [step] at h
    pbind h with o1 h1
    injection h with h; subst h
    rw [P.treeTakes] at hc
    exact H.tree p _ o1 _ hc h1 ho
  | peek t =>
    have := up_ok h
    rw [runPeek] at this
    rbind this with u hu
    injection this with this; subst this
    cases ho
  | star p => cases hc
  | rule r =>
    have hk : o.ok = true := by
      rw [step] at h
      pbind h with w hw
      split at h
      · injection h with h; subst h; cases ho
      · injection h with h; subst h; rfl
    exact hok _ _ _ hc h hk
  | seq tag ps =>
    have hk : o.ok = true := by
      rw [step] at h
      pbind h with w hw
      split at h
      · pbind h with n hn
        injection h with h; subst h; rfl
      · injection h with h; subst h; cases ho
    exact hok _ _ _ hc h hk
  | tagIf tag p =>
    rw [P.treeTakes] at hc
    rw [step] at h
    pbind h with o1 h1
    split at h
    · next n hn =>
      pbind h with n' hn'
      injection h with h; subst h
      exact H.tree _ _ o1 _ hc h1 hn
    · injection h with h; subst h
      exact H.tree _ _ o1 _ hc h1 ho

theorem eval_takes (hx : x.Forward) (hg : ∀ r, c r = true → (g r).takes c = true) :
    ∀ n, Takes c (eval g x n) := by
  intro n
  induction n with
  | zero => exact ⟨(fun _ _ _ h => by cases h), (fun _ _ _ _ h => by cases h), (fun _ _ _ _ _ h => by cases h)⟩
  | succ n ih => exact step_takes hx hg ih

end took

/-! ### Sequences that settle -/

/-- From some bound on the result is always the same, and it is not for lack of calls. -/
def Conv {α : Type} (a : Nat → PRes α) : Prop := ∃ N r, r ≠ .error .fuel ∧ ∀ n, N ≤ n → a n = r

theorem Conv.const {α : Type} {r : PRes α} (h : r ≠ .error .fuel) : Conv (fun _ => r) :=
  ⟨0, r, h, fun _ _ => rfl⟩

theorem up_ne_fuel {α : Type} (r : Res α) : up r ≠ .error .fuel := by
  cases r <;> simp [up]

theorem Conv.up {α : Type} (r : Res α) : Conv (fun _ => up r) := .const (up_ne_fuel r)

theorem Conv.ok {α : Type} (a : α) : Conv (fun _ => (.ok a : PRes α)) := .const (by simp)

theorem Conv.bind {α β : Type} {a : Nat → PRes α} {h : Nat → α → PRes β} (ha : Conv a)
    (hh : ∀ v n, a n = .ok v → Conv (fun n => h n v)) : Conv (fun n => a n >>= h n) := by
  obtain ⟨N, r, hr, hN⟩ := ha
  match r, hr, hN with
  | .ok v, hr, hN =>
    obtain ⟨M, q, hq, hM⟩ := hh v N (hN N (le_refl _))
    refine ⟨max N M, q, hq, fun n hn => ?_⟩
    show a n >>= h n = q
    rw [hN n (by omega)]
    exact hM n (by omega)
  | .error .fuel, hr, hN => exact absurd rfl hr
  | .error (.fail e), hr, hN =>
    exact ⟨N, .error (.fail e), by simp, fun n hn => by show a n >>= h n = _; rw [hN n hn]; rfl⟩

theorem Conv.shift {α : Type} {a : Nat → PRes α} (h : Conv a) (c : Nat) : Conv (fun n => a (n + c)) := by
  obtain ⟨N, r, hr, hN⟩ := h
  exact ⟨N, r, hr, fun n hn => hN _ (by omega)⟩

theorem Conv.unshift {α : Type} {a : Nat → PRes α} (h : Conv (fun n => a (n + 1))) : Conv a := by
  obtain ⟨N, r, hr, hN⟩ := h
  refine ⟨N + 1, r, hr, fun n hn => ?_⟩
  have : a (n - 1 + 1) = r := hN (n - 1) (by omega)
  rwa [show n - 1 + 1 = n by omega] at this

theorem Conv.ite {α : Type} {q : Prop} [Decidable q] {a b : Nat → PRes α} (ha : q → Conv a)
    (hb : ¬ q → Conv b) : Conv (fun n => if q then a n else b n) := by
  by_cases h : q
  · simpa only [if_pos h] using ha h
  · simpa only [if_neg h] using hb h

/-! ### Ranks -/

section ranks
variable (c : R → Bool) (rk : R → Nat) (ρ : Nat)

mutual
/-- Only rules of rank below `ρ` are called before a token has been taken. -/
def P.left : P → Bool
  | .rule r => rk r < ρ
  | .seq _ ps => P.leftSeq ps
  | .alts _ ps => P.leftAll ps
  | .star p => p.left
  | .opt p => p.left
  | .neg p => p.left
  | .tagIf _ p => p.left
  | .letter => true
  | .literal _ => true
  | .name => true
  | .peek _ => true
  | .tok _ => true
def P.leftSeq : List P → Bool
  | [] => true
  | p :: ps => p.left && (p.takes c || P.leftSeq ps)
def P.leftAll : List P → Bool
  | [] => true
  | p :: ps => p.left && P.leftAll ps
end

mutual
/-- What is repeated takes a token, all the way down. -/
def P.starsTake : P → Bool
  | .star p => p.takes c && p.starsTake
  | .seq _ ps => P.starsTakeAll ps
  | .alts _ ps => P.starsTakeAll ps
  | .opt p => p.starsTake
  | .neg p => p.starsTake
  | .tagIf _ p => p.starsTake
  | .rule _ => true
  | .letter => true
  | .literal _ => true
  | .name => true
  | .peek _ => true
  | .tok _ => true
def P.starsTakeAll : List P → Bool
  | [] => true
  | p :: ps => p.starsTake && P.starsTakeAll ps
end

/-- A rule body calls only rules of lower rank before taking a token, and so on. -/
def Body.descends : Body → Bool
  | .comb p => p.left c rk ρ && p.starsTake c
  | .expr _ real => real.left c rk ρ && real.starsTake c && real.treeTakes c
  | .parens => true
  | .listName => true
  | .procDesignator p => p.left c rk ρ && p.starsTake c
  | .withExts _ p => p.left c rk ρ && p.starsTake c

end ranks

section conv
variable {c : R → Bool} {rk : R → Nat} {F : Nat → P → Strm → PRes Out}

theorem mem_starsTake {ps : List P} (h : P.starsTakeAll c ps = true) : ∀ q ∈ ps, q.starsTake c = true := by
  induction ps with
  | nil => simp
  | cons p ps ih =>
    rw [P.starsTakeAll, Bool.and_eq_true] at h
    intro q hq
    rcases List.mem_cons.mp hq with rfl | hq
    · exact h.1
    · exact ih h.2 q hq

theorem mem_leftAll {ρ : Nat} {ps : List P} (h : P.leftAll c rk ρ ps = true) :
    ∀ q ∈ ps, q.left c rk ρ = true := by
  induction ps with
  | nil => simp
  | cons p ps ih =>
    rw [P.leftAll, Bool.and_eq_true] at h
    intro q hq
    rcases List.mem_cons.mp hq with rfl | hq
    · exact h.1
    · exact ih h.2 q hq

theorem altsLoop_conv (H : ∀ n, Takes c (F n)) {s : Strm} :
    ∀ ps s', Adv true s s' → (∀ q ∈ ps, ∀ s', Adv true s s' → Conv (fun n => F n q s')) →
    Conv (fun n => altsLoop (F n) ps s') := by
  intro ps
  induction ps with
  | nil => intro s' _ _; exact .ok _
  | cons p ps ih =>
    intro s' hs hc
    simp only [altsLoop]
    refine (hc p (by simp) s' hs).bind (fun o n ho => ?_)
    refine .ite (fun _ => .ok _) (fun _ => ?_)
    exact ih _ (hs.trans ((H n).adv _ _ _ ho)) (fun q hq => hc q (by simp [hq]))

/-- After a token has been taken everything that follows settles. -/
theorem seqLoop_conv_later (H : ∀ n, Takes c (F n)) {s : Strm} :
    ∀ ps s' acc, Adv true s s' → Took s s' →
    (∀ q ∈ ps, ∀ s', Adv true s s' → Took s s' → Conv (fun n => F n q s')) →
    Conv (fun n => seqLoop (F n) ps s' acc) := by
  intro ps
  induction ps with
  | nil => intro s' acc _ _ _; exact .ok _
  | cons p ps ih =>
    intro s' acc hs ht hc
    simp only [seqLoop]
    refine (hc p (by simp) s' hs ht).bind (fun o n ho => ?_)
    have ha := (H n).adv _ _ _ ho
    refine .ite (fun _ => ?_) (fun _ => .ok _)
    exact ih _ _ (hs.trans ha) (ht.adv_trans hs.frame.1 ha) (fun q hq => hc q (by simp [hq]))

theorem seqLoop_conv (H : ∀ n, Takes c (F n)) {s : Strm} {ρ : Nat} :
    ∀ ps s' acc, Adv true s s' → P.leftSeq c rk ρ ps = true →
    (∀ q ∈ ps, q.left c rk ρ = true → ∀ s', Adv true s s' → Conv (fun n => F n q s')) →
    (∀ q ∈ ps, ∀ s', Adv true s s' → Took s s' → Conv (fun n => F n q s')) →
    Conv (fun n => seqLoop (F n) ps s' acc) := by
  intro ps
  induction ps with
  | nil => intro s' acc _ _ _ _; exact .ok _
  | cons p ps ih =>
    intro s' acc hs hl hc1 hc2
    rw [P.leftSeq, Bool.and_eq_true, Bool.or_eq_true] at hl
    simp only [seqLoop]
    refine (hc1 p (by simp) hl.1 s' hs).bind (fun o n ho => ?_)
    have ha := (H n).adv _ _ _ ho
    refine .ite (fun hok => ?_) (fun _ => .ok _)
    rcases hl.2 with h | h
    · exact seqLoop_conv_later H _ _ _ (hs.trans ha) (((H n).ok _ _ _ h ho hok).trans_adv hs)
        (fun q hq => hc2 q (by simp [hq]))
    · exact ih _ _ (hs.trans ha) h (fun q hq => hc1 q (by simp [hq])) (fun q hq => hc2 q (by simp [hq]))

/-- How far the end of the line is. -/
def Strm.rem (s : Strm) : Nat := s.all.length + 2 - s.pos

theorem Took.rem {s t : Strm} (he : t.all = s.all) (h : Took s t) : t.rem < s.rem := by
  rw [Strm.rem, Strm.rem, he]
  obtain ⟨a, b⟩ := h
  omega

theorem Adv.rem {s t : Strm} (h : Adv true s t) : t.rem ≤ s.rem := by
  rw [Strm.rem, Strm.rem, h.frame.1]
  have := h.fwd rfl
  omega

theorem starLoop_conv (H : ∀ n, Takes c (F n)) {s : Strm} {p : P} (ht : p.takes c = true)
    (hc : ∀ s', Adv true s s' → Conv (fun n => F n p s')) :
    ∀ m s' acc j, Adv true s s' → s'.rem ≤ m → Conv (fun n => starLoop (F (n + j)) p n s' acc) := by
  intro m
  induction m with
  | zero =>
    intro s' acc j hs hm
    refine Conv.unshift ?_
    simp only [starLoop]
    have h1 : Conv (fun n => F (n + 1 + j) p s') := by
      have := (hc s' hs).shift (1 + j)
      simpa only [Nat.add_assoc] using this
    refine h1.bind (fun o n ho => ?_)
    refine .ite (fun hok => ?_) (fun _ => .ok _)
    have := ((H _).ok _ _ _ ht ho hok).rem ((H _).adv _ _ _ ho).frame.1
    omega
  | succ m ih =>
    intro s' acc j hs hm
    refine Conv.unshift ?_
    simp only [starLoop]
    have h1 : Conv (fun n => F (n + 1 + j) p s') := by
      have := (hc s' hs).shift (1 + j)
      simpa only [Nat.add_assoc] using this
    refine h1.bind (fun o n ho => ?_)
    refine .ite (fun hok => ?_) (fun _ => .ok _)
    have ha := (H _).adv _ _ _ ho
    have hr := ((H _).ok _ _ _ ht ho hok).rem ha.frame.1
    have := ih o.s (hoistBack acc o.tree) (1 + j) (hs.trans ha) (by omega)
    simpa only [Nat.add_assoc] using this

theorem untilBreak_conv (H : ∀ n, Takes c (F n)) {s : Strm} {real : P} (ht : real.treeTakes c = true)
    (hc : ∀ s', Adv true s s' → Conv (fun n => F n real s')) :
    ∀ m s' d ks j, Adv true s s' → s'.rem < m →
    Conv (fun n => untilBreak (F (n + j)) real n s' d ks) := by
  intro m
  induction m with
  | zero => intro s' d ks j hs hm; omega
  | succ m ih =>
    intro s' d ks j hs hm
    refine Conv.unshift ?_
    simp only [untilBreak]
    refine (Conv.up _).bind (fun t _ _ => ?_)
    cases breakStep t d with
    | stop => exact .ok _
    | fail => exact .ok _
    | take d' =>
      refine .ite (fun _ => ?_) (fun _ => ?_)
      · have h1 : Conv (fun n => F (n + 1 + j) real s') := by
          have := (hc s' hs).shift (1 + j)
          simpa only [Nat.add_assoc] using this
        refine h1.bind (fun o n ho => ?_)
        refine (Conv.up _).bind (fun ks' _ hk => ?_)
        have ha := (H _).adv _ _ _ ho
        have hr : o.s.rem < s'.rem := by
          cases htree : o.tree with
          | none => rw [htree] at hk; cases hk
          | some nd => exact ((H _).tree _ _ _ _ ht ho htree).rem ha.frame.1
        have := ih o.s d' ks' (1 + j) (hs.trans ha) (by omega)
        simpa only [Nat.add_assoc] using this
      · refine (Conv.up _).bind (fun r _ hr => ?_)
        have hr := up_ok hr
        have ha := digest_adv (m := true) hr
        have hrem := (digest_took hr).rem ha.frame.1
        have := ih r.2 d' (ks ++ [.node t (some r.1) []]) (1 + j) (hs.trans ha) (by omega)
        simpa only [Nat.add_assoc] using this

theorem parensLoop_conv : ∀ m s d ks, s.rem < m → Conv (fun n => parensLoop n s d ks) := by
  intro m
  induction m with
  | zero => intro s d ks hm; omega
  | succ m ih =>
    intro s d ks hm
    refine Conv.unshift ?_
    simp only [parensLoop]
    refine .ite (fun _ => ?_) (fun _ => .ok _)
    refine (Conv.up _).bind (fun t _ _ => ?_)
    have next : ∀ d', Conv (fun n => up (s.digest 1) >>= fun r =>
        parensLoop n r.2 d' (ks ++ [.node t (some r.1) []])) := by
      intro d'
      refine (Conv.up _).bind (fun r _ hr => ?_)
      have hr := up_ok hr
      have := (digest_took hr).rem (digest_adv (m := true) hr).frame.1
      exact ih _ _ _ (by omega)
    refine .ite (fun _ => next _) (fun _ => .ite (fun _ => next _) (fun _ => .ite (fun _ => ?_) (fun _ => next _)))
    exact .const (by simp)

theorem runBody_conv {x : Exts} (H : ∀ n, Takes c (F n)) {s : Strm} {b : Body} {ρ : Nat}
    (hb : b.descends c rk ρ = true)
    (hc : ∀ p s', p.left c rk ρ = true → p.starsTake c = true → s'.rem ≤ s.rem →
      Conv (fun n => F n p s')) :
    Conv (fun n => runBody x (F n) n b s) := by
  cases b with
  | comb p =>
    rw [Body.descends, Bool.and_eq_true] at hb
    simp only [runBody]
    exact (hc p s hb.1 hb.2 (le_refl _)).bind (fun _ _ _ => .ok _)
  | expr tag real =>
    rw [Body.descends] at hb
    simp only [Bool.and_eq_true] at hb
    simp only [runBody, runExpr]
    refine (Conv.up _).bind (fun t _ _ => ?_)
    refine .ite (fun _ => .ok _) (fun _ => ?_)
    have h1 := untilBreak_conv H hb.2 (s := s) (fun s' hs' => hc real s' hb.1.1 hb.1.2 hs'.rem)
      (s.rem + 1) s 1 [] 0 (.refl _ _) (by omega)
    refine Conv.bind (a := fun n => untilBreak (F n) real n s 1 []) h1 (fun w _ _ => ?_)
    cases h : w.1 with
    | none => exact .ok _
    | some ks =>
      cases ks with
      | nil => exact .ok _
      | cons k ks => exact (Conv.up _).bind (fun _ _ _ => .ok _)
  | parens =>
    simp only [runBody, runParens]
    refine (Conv.up _).bind (fun t _ _ => ?_)
    refine .ite (fun _ => .ok _) (fun _ => ?_)
    refine (Conv.up _).bind (fun r _ _ => ?_)
    exact (parensLoop_conv _ _ _ _ (Nat.lt_succ_self _)).bind
      (fun q _ _ => (Conv.up _).bind (fun _ _ _ => .ok _))
  | listName => exact .up _
  | procDesignator p =>
    rw [Body.descends, Bool.and_eq_true] at hb
    simp only [runBody, runDesignator]
    refine (Conv.up _).bind (fun e _ _ => ?_)
    refine (Conv.up _).bind (fun r _ hr => ?_)
    have hr := up_ok hr
    have he : r.1 = s.pos := by
      rw [Strm.mkRange] at hr
      split at hr
      · injection hr with hr; rw [← hr]
      · cases hr
    refine (hc p _ hb.1 hb.2 ?_).bind (fun _ _ _ => .ok _)
    show s.all.length + 2 - r.1 ≤ s.all.length + 2 - s.pos
    rw [he]
  | withExts a p =>
    rw [Body.descends, Bool.and_eq_true] at hb
    simp only [runBody]
    refine (hc p s hb.1 hb.2 (le_refl _)).bind (fun o _ _ => ?_)
    exact .ite (fun _ => .ok _) (fun _ => .up _)

theorem sizeOf_mem {q : P} {ps : List P} (h : q ∈ ps) : sizeOf q < sizeOf ps := List.sizeOf_lt_of_mem h

/-- With tables that fit the grammar every parser term settles on every stream. -/
theorem eval_conv {g : R → Body} {x : Exts} (hx : x.Forward)
    (hg : ∀ r, c r = true → (g r).takes c = true) (hd : ∀ r, (g r).descends c rk (rk r) = true)
    {top : Nat} (htop : ∀ p : P, p.left c rk top = true) :
    ∀ m ρ k p s, p.left c rk ρ = true → p.starsTake c = true → s.rem ≤ m → sizeOf p ≤ k →
    Conv (fun n => eval g x n p s) := by
  have H : ∀ n, Takes c (eval g x n) := eval_takes hx hg
  intro m
  induction m using Nat.strong_induction_on with
  | _ m ihm =>
  intro ρ
  induction ρ using Nat.strong_induction_on with
  | _ ρ ihρ =>
  intro k
  induction k with
  | zero => intro p s _ _ _ hk; cases p <;> simp at hk
  | succ k ihk =>
  intro p s hl hst hm hk
  have same : ∀ q, sizeOf q ≤ k → q.left c rk ρ = true → q.starsTake c = true → ∀ s', Adv true s s' →
      Conv (fun n => eval g x n q s') :=
    fun q hq h1 h2 s' hs' => ihk q s' h1 h2 (le_trans hs'.rem hm) hq
  have later : ∀ q : P, q.starsTake c = true → ∀ s', Adv true s s' → Took s s' →
      Conv (fun n => eval g x n q s') := by
    intro q h2 s' hs' ht
    have := ht.rem hs'.frame.1
    exact ihm s'.rem (by omega) top (sizeOf q) q s' (htop q) h2 (le_refl _) (le_refl _)
  refine Conv.unshift ?_
  simp only [eval]
  cases p with
  | alts tag ps =>
    rw [P.left] at hl
    rw [P.starsTake] at hst
    simp only [P.alts.sizeOf_spec] at hk
    simp only [step]
    refine (altsLoop_conv H (s := s) ps s (.refl _ _) (fun q hq s' hs' =>
      same q (by have := sizeOf_mem hq; omega) (mem_leftAll hl q hq) (mem_starsTake hst q hq) s' hs')).bind
      (fun o _ _ => ?_)
    exact .ite (fun _ => (Conv.up _).bind (fun _ _ _ => .ok _)) (fun _ => .ok _)
  | letter => exact .up _
  | literal w => exact .up _
  | name => exact .up _
  | tok t => exact .up _
  | peek t => exact .up _
  | neg p =>
    rw [P.left] at hl
    rw [P.starsTake] at hst
    simp only [P.neg.sizeOf_spec] at hk
    simp only [step]
    exact (same p (by omega) hl hst s (.refl _ _)).bind (fun _ _ _ => .ok _)
  | opt p =>
    rw [P.left] at hl
    rw [P.starsTake] at hst
    simp only [P.opt.sizeOf_spec] at hk
    simp only [step]
    exact (same p (by omega) hl hst s (.refl _ _)).bind (fun _ _ _ => .ok _)
  | rule r =>
    rw [P.left] at hl
    simp only [step]
    refine (runBody_conv H (hd r) (fun p s' h1 h2 h3 =>
      ihρ (rk r) (by simpa using hl) (sizeOf p) p s' h1 h2 (le_trans h3 hm) (le_refl _))).bind
      (fun w _ _ => ?_)
    cases w.1 <;> exact .ok _
  | seq tag ps =>
    rw [P.left] at hl
    rw [P.starsTake] at hst
    simp only [P.seq.sizeOf_spec] at hk
    simp only [step]
    refine (seqLoop_conv H (s := s) (ρ := ρ) (rk := rk) ps s _ (.refl _ _) hl
      (fun q hq h1 s' hs' => same q (by have := sizeOf_mem hq; omega) h1 (mem_starsTake hst q hq) s' hs')
      (fun q hq s' hs' ht => later q (mem_starsTake hst q hq) s' hs' ht)).bind (fun w _ _ => ?_)
    exact .ite (fun _ => (Conv.up _).bind (fun _ _ _ => .ok _)) (fun _ => .ok _)
  | star p =>
    rw [P.left] at hl
    rw [P.starsTake, Bool.and_eq_true] at hst
    simp only [P.star.sizeOf_spec] at hk
    simp only [step]
    have h1 := starLoop_conv H (s := s) hst.1 (fun s' hs' => same p (by omega) hl hst.2 s' hs')
      s.rem s (.node Tag.HOIST none []) 0 (.refl _ _) (le_refl _)
    refine Conv.bind (a := fun n => starLoop (eval g x n) p n s (.node Tag.HOIST none [])) h1 (fun w _ _ => ?_)
    exact (Conv.up _).bind (fun _ _ _ => .ok _)
  | tagIf tag p =>
    rw [P.left] at hl
    rw [P.starsTake] at hst
    simp only [P.tagIf.sizeOf_spec] at hk
    simp only [step]
    refine (same p (by omega) hl hst s (.refl _ _)).bind (fun o _ _ => ?_)
    cases o.tree with
    | none => exact .ok _
    | some t => exact (Conv.up _).bind (fun _ _ _ => .ok _)

end conv

/-! ### The grammar -/

/-- The rules that take a token whenever they match. -/
def R.takes (r : R) : Bool := !(R.mayTakeNone.contains r)

/-- A test of every rule. -/
theorem R.forall_of {q : R → Bool} (h : R.all.all q = true) (r : R) : q r = true :=
  List.all_eq_true.mp h r (R.mem_all r)

theorem grammar_takes (r : R) (h : r.takes = true) : (R.body r).takes R.takes = true := by
  have : (!r.takes || (R.body r).takes R.takes) = true :=
    R.forall_of (q := fun r => !r.takes || (R.body r).takes R.takes) (by decide +kernel) r
  rw [h] at this
  simpa using this

theorem grammar_descends (r : R) : (R.body r).descends R.takes R.rank r.rank = true :=
  R.forall_of (q := fun r => (R.body r).descends R.takes R.rank r.rank) (by decide +kernel) r

theorem rank_le (r : R) : r.rank < 8 := by
  have := R.forall_of (q := fun r => decide (r.rank < 8)) (by decide +kernel) r
  simpa using this

mutual
theorem left_top : ∀ p : P, p.left R.takes R.rank 8 = true
  | .rule r => by rw [P.left]; simpa using rank_le r
  | .seq _ ps => by rw [P.left]; exact leftSeq_top ps
  | .alts _ ps => by rw [P.left]; exact leftAll_top ps
  | .star p => by rw [P.left]; exact left_top p
  | .opt p => by rw [P.left]; exact left_top p
  | .neg p => by rw [P.left]; exact left_top p
  | .tagIf _ p => by rw [P.left]; exact left_top p
  | .letter => rfl
  | .literal _ => rfl
  | .name => rfl
  | .peek _ => rfl
  | .tok _ => rfl
theorem leftSeq_top : ∀ ps : List P, P.leftSeq R.takes R.rank 8 ps = true
  | [] => rfl
  | p :: ps => by rw [P.leftSeq, left_top p, leftSeq_top ps]; simp
theorem leftAll_top : ∀ ps : List P, P.leftAll R.takes R.rank 8 ps = true
  | [] => rfl
  | p :: ps => by rw [P.leftAll, left_top p, leftAll_top ps]; simp
end

/-- Every rule of the grammar settles on every stream. -/
theorem evalRule_conv {x : Exts} (hx : x.Forward) (r : R) (s : Strm) :
    Conv (fun n => evalRule R.body x n r s) :=
  runBody_conv (rk := R.rank) (ρ := r.rank) (eval_takes hx grammar_takes) (grammar_descends r)
    (fun p s' h1 h2 _ => eval_conv hx grammar_takes grammar_descends left_top s'.rem r.rank (sizeOf p) p s'
      h1 h2 (le_refl _) (le_refl _))

end SP
end FLPR
