import Verif.StmtParser.AlikeSpec
import Verif.StmtParser.EvalLemmas
import Mathlib.Data.List.Forall2
/-!
# Statement parsers do not tell equivalent streams apart: lemmas
-/

namespace FLPR
namespace SP
open Spec Registry

namespace BW
variable {ε α β γ δ : Type}

theorem ok {Q : α → β → Prop} {a : α} {b : β} (h : Q a b) : BothWays (ε := ε) Q (.ok a) (.ok b) := h

theorem err {Q : α → β → Prop} (e : ε) : BothWays Q (.error e : Except ε α) (.error e : Except ε β) := rfl

theorem bind {Q : α → β → Prop} {S : γ → δ → Prop} {a : Except ε α} {b : Except ε β} {f : α → Except ε γ} {g : β → Except ε δ}
    (h : BothWays Q a b) (hf : ∀ x y, Q x y → BothWays S (f x) (g y)) : BothWays S (a >>= f) (b >>= g) := by
  cases a with
  | ok a =>
    cases b with
    | ok b => exact hf a b h
    | error e => exact h.elim
  | error e =>
    cases b with
    | ok b => exact h.elim
    | error e' => exact h

theorem same (a : Except ε α) : BothWays (· = ·) a a := by
  cases a with
  | ok a => exact rfl
  | error e => exact rfl

theorem ofEq {a b : Except ε α} (h : b = a) : BothWays (fun x y => y = x) a b := by
  subst h
  cases b <;> exact rfl

theorem up {Q : α → β → Prop} {a : Res α} {b : Res β} (h : BothWays Q a b) : BothWays Q (SP.up a) (SP.up b) := by
  cases a with
  | ok a =>
    cases b with
    | ok b => exact h
    | error e => exact h.elim
  | error e =>
    cases b with
    | ok b => exact h.elim
    | error e' =>
      have : e' = e := h
      subst this
      exact rfl

theorem ite {Q : α → β → Prop} {p : Prop} [Decidable p] {a a' : Except ε α} {b b' : Except ε β} (h1 : p → BothWays Q a b)
    (h2 : ¬ p → BothWays Q a' b') : BothWays Q (if p then a else a') (if p then b else b') := by
  by_cases h : p
  · rw [if_pos h, if_pos h]; exact h1 h
  · rw [if_neg h, if_neg h]; exact h2 h

theorem mono {Q S : α → β → Prop} {a : Except ε α} {b : Except ε β} (h : BothWays Q a b) (hs : ∀ x y, Q x y → S x y) : BothWays S a b := by
  cases a with
  | ok a =>
    cases b with
    | ok b => exact hs a b h
    | error e => exact h.elim
  | error e =>
    cases b with
    | ok b => exact h.elim
    | error e' => exact h

end BW

theorem EquivTok.refl (t : Tok) : EquivTok t t := ⟨rfl, rfl, rfl⟩

theorem equivStrm_goto {s s' : Strm} (h : EquivStrm s s') {p p' : Nat} (hp : p' = p) : EquivStrm (s.goto p) (s'.goto p') :=
  ⟨h.all, h.lo, h.hi, hp⟩

theorem derefTok_eqv {l l' : List Tok} (h : List.Forall₂ EquivTok l l') (i : Nat) :
    BothWays EquivTok (derefTok l i) (derefTok l' i) := by
  unfold derefTok
  rw [← h.length_eq]
  refine BW.ite (fun hi => ?_) (fun _ => BW.ite (fun _ => BW.ok (EquivTok.refl _)) (fun _ => BW.err _))
  refine BW.ok ?_
  clear hi
  induction h generalizing i with
  | nil => simpa using EquivTok.refl _
  | cons hx _ ih =>
    cases i with
    | zero => simpa using hx
    | succ i => simpa using ih i

theorem peek_eqv {s s' : Strm} (h : EquivStrm s s') : s'.peek = s.peek := by
  have hd := derefTok_eqv h.all s.pos
  unfold Strm.peek
  rw [h.pos, h.hi]
  split
  · rfl
  · cases h1 : derefTok s.all s.pos <;> cases h2 : derefTok s'.all s.pos <;> rw [h1, h2] at hd
    · have : _ = _ := hd
      rw [this]
    · exact hd.elim
    · exact hd.elim
    · have : EquivTok _ _ := hd
      simp only [Res.ok_bind, this.tag]

theorem peekTT_eqv {s s' : Strm} (h : EquivStrm s s') (k : Nat) : BothWays EquivTok (s.peekTT k) (s'.peekTT k) := by
  unfold Strm.peekTT
  dsimp only
  rw [h.pos, h.hi, ← h.all.length_eq]
  exact BW.ite (fun _ => BW.ite (fun _ => derefTok_eqv h.all _) (fun _ => BW.ok (EquivTok.refl _))) (fun _ => BW.err _)

theorem tokenOf_eqv {a b : Res Tok} (h : BothWays EquivTok a b) :
    (do let t ← b; .ok t.token : Res Int) = (do let t ← a; .ok t.token) := by
  cases a <;> cases b
  · have : _ = _ := h
    rw [this]
  · exact h.elim
  · exact h.elim
  · have : EquivTok _ _ := h
    simp only [Res.ok_bind, this.tag]

theorem peekAt_eqv {s s' : Strm} (h : EquivStrm s s') (k : Nat) : s'.peekAt k = s.peekAt k := tokenOf_eqv (peekTT_eqv h k)

theorem curr_eqv {s s' : Strm} (h : EquivStrm s s') : s'.curr = s.curr := by
  refine tokenOf_eqv ?_
  unfold Strm.currTT
  rw [h.pos, h.lo]
  exact BW.ite (fun _ => BW.ite (fun _ => BW.err _) (fun _ => derefTok_eqv h.all _)) (fun _ => BW.ok (EquivTok.refl _))

theorem consume_eqv {s s' : Strm} (h : EquivStrm s s') (n : Nat) : BothWays EquivStrm (s.consume n) (s'.consume n) := by
  unfold Strm.consume
  rw [h.pos, ← h.all.length_eq]
  exact BW.ite (fun _ => BW.ok (equivStrm_goto h rfl)) (fun _ => BW.err _)

theorem putBack_eqv {s s' : Strm} (h : EquivStrm s s') : BothWays EquivStrm s.putBack s'.putBack := by
  unfold Strm.putBack
  rw [h.pos, h.lo]
  exact BW.ite (fun _ => BW.ite (fun _ => BW.err _) (fun _ => BW.ok (equivStrm_goto h rfl))) (fun _ => BW.ok h)

/-- Equal first components, streams in the relation. -/
def PairEq {α : Type} (a b : α × Strm) : Prop := b.1 = a.1 ∧ EquivStrm a.2 b.2

theorem mkRange_eqv {l l' : List Tok} (h : List.Forall₂ EquivTok l l') (b e : Nat) : Strm.mkRange l' b e = Strm.mkRange l b e := by
  unfold Strm.mkRange
  rw [← h.length_eq]

theorem digest_eqv {s s' : Strm} (h : EquivStrm s s') (n : Nat) : BothWays PairEq (s.digest n) (s'.digest n) := by
  unfold Strm.digest
  refine BW.bind (consume_eqv h n) (fun a b hab => ?_)
  rw [mkRange_eqv h.all, h.pos, hab.pos]
  exact BW.bind (BW.same _) (fun x y hxy => BW.ok ⟨hxy.symm, hab⟩)

theorem openLoop_eqv : ∀ (n : Nat) {s s' : Strm}, EquivStrm s s' → ∀ d, BothWays PairEq (Strm.openLoop n s d) (Strm.openLoop n s' d)
  | 0, _, _, _, _ => BW.err _
  | n + 1, s, s', h, d => by
    unfold Strm.openLoop
    refine BW.ite (fun _ => ?_) (fun _ => BW.ok ⟨rfl, h⟩)
    refine BW.bind (putBack_eqv h) (fun a b hab => ?_)
    rw [curr_eqv hab]
    refine BW.bind (BW.same _) (fun t t' ht => ?_)
    subst ht
    exact BW.ite (fun _ => openLoop_eqv n hab _) (fun _ => BW.ite (fun _ => openLoop_eqv n hab _)
      (fun _ => BW.ite (fun _ => BW.ok ⟨rfl, hab⟩) (fun _ => openLoop_eqv n hab _)))

theorem moveToOpenParen_eqv {s s' : Strm} (h : EquivStrm s s') : BothWays PairEq s.moveToOpenParen s'.moveToOpenParen := by
  unfold Strm.moveToOpenParen
  rw [curr_eqv h, h.pos]
  refine BW.bind (BW.same _) (fun t t' ht => ?_)
  subst ht
  refine BW.ite (fun _ => BW.ok ⟨rfl, h⟩) (fun _ => ?_)
  refine BW.bind (openLoop_eqv _ h _) (fun a b hab => BW.ok ⟨?_, hab.2⟩)
  show (b.1 == 0) = (a.1 == 0)
  rw [hab.1]

/-! ### The parsers -/

/-- The same result, and streams in the relation. -/
structure OutEq (o o' : Out) : Prop where
  tree : o'.tree = o.tree
  ok : o'.ok = o.ok
  s : EquivStrm o.s o'.s

theorem noMatch_eqv {s s' : Strm} (h : EquivStrm s s') : OutEq (noMatch s) (noMatch s') := ⟨rfl, rfl, h⟩

theorem leaf_eqv {s s' : Strm} (h : EquivStrm s s') (tag : Int) : BothWays OutEq (leaf tag s) (leaf tag s') := by
  unfold leaf
  refine BW.bind (digest_eqv h 1) (fun a b hab => BW.ok ⟨?_, rfl, hab.2⟩)
  rw [hab.1]

theorem map_length_eq {a b : Str} (h : b.map lowChar = a.map lowChar) : b.length = a.length := by
  have := congrArg List.length h
  simpa using this

theorem runLetter_eqv {s s' : Strm} (h : EquivStrm s s') : BothWays OutEq (runLetter s) (runLetter s') := by
  unfold runLetter
  rw [peek_eqv h]
  refine BW.bind (BW.same _) (fun t t' ht => ?_)
  subst ht
  refine BW.bind (BW.same _) (fun b b' hb => ?_)
  subst hb
  refine BW.ite (fun _ => ?_) (fun _ => BW.ok (noMatch_eqv h))
  refine BW.bind (peekTT_eqv h 1) (fun x y hxy => ?_)
  rw [map_length_eq hxy.text]
  exact BW.ite (fun _ => BW.ok (noMatch_eqv h)) (fun _ => leaf_eqv h _)

theorem runLiteral_eqv {s s' : Strm} (h : EquivStrm s s') (w : Str) : BothWays OutEq (runLiteral w s) (runLiteral w s') := by
  unfold runLiteral
  rw [peek_eqv h]
  refine BW.bind (BW.same _) (fun t t' ht => ?_)
  subst ht
  refine BW.bind (BW.same _) (fun b b' hb => ?_)
  subst hb
  refine BW.ite (fun _ => ?_) (fun _ => BW.ok (noMatch_eqv h))
  refine BW.bind (peekTT_eqv h 1) (fun x y hxy => ?_)
  rw [hxy.lower]
  exact BW.ite (fun _ => BW.ok (noMatch_eqv h)) (fun _ => leaf_eqv h _)

theorem runName_eqv {s s' : Strm} (h : EquivStrm s s') : BothWays OutEq (runName s) (runName s') := by
  unfold runName
  rw [peek_eqv h]
  refine BW.bind (BW.same _) (fun t t' ht => ?_)
  subst ht
  refine BW.bind (BW.same _) (fun b b' hb => ?_)
  subst hb
  exact BW.ite (fun _ => leaf_eqv h _) (fun _ => BW.ok (noMatch_eqv h))

theorem runTok_eqv {s s' : Strm} (h : EquivStrm s s') (tag : Int) : BothWays OutEq (runTok tag s) (runTok tag s') := by
  unfold runTok
  rw [peek_eqv h]
  refine BW.bind (BW.same _) (fun t t' ht => ?_)
  subst ht
  exact BW.ite (fun _ => BW.ok (noMatch_eqv h)) (fun _ => leaf_eqv h _)

theorem runPeek_eqv {s s' : Strm} (h : EquivStrm s s') (tag : Int) : BothWays OutEq (runPeek tag s) (runPeek tag s') := by
  unfold runPeek
  rw [peek_eqv h]
  refine BW.bind (BW.same _) (fun t t' ht => ?_)
  subst ht
  exact BW.ok ⟨rfl, rfl, h⟩

/-- The inner parsers do not tell equivalent streams apart. -/
def Level (f : P → Strm → PRes Out) : Prop := ∀ p s s', EquivStrm s s' → BothWays OutEq (f p s) (f p s')

section
variable {f : P → Strm → PRes Out} (H : Level f)

include H in
theorem altsLoop_eqv : ∀ ps {s s' : Strm}, EquivStrm s s' → BothWays OutEq (altsLoop f ps s) (altsLoop f ps s')
  | [], s, s', h => BW.ok (noMatch_eqv h)
  | p :: ps, s, s', h => by
    unfold altsLoop
    refine BW.bind (H p s s' h) (fun o o' ho => ?_)
    rw [ho.ok]
    exact BW.ite (fun _ => BW.ok ho) (fun _ => altsLoop_eqv ps ho.s)

/-- What sequences are collected as. -/
structure SeqEq (a b : SNode × Bool × Strm) : Prop where
  node : b.1 = a.1
  ok : b.2.1 = a.2.1
  s : EquivStrm a.2.2 b.2.2

include H in
theorem seqLoop_eqv : ∀ ps {s s' : Strm}, EquivStrm s s' → ∀ acc, BothWays SeqEq (seqLoop f ps s acc) (seqLoop f ps s' acc)
  | [], s, s', h, acc => BW.ok ⟨rfl, rfl, h⟩
  | p :: ps, s, s', h, acc => by
    unfold seqLoop
    refine BW.bind (H p s s' h) (fun o o' ho => ?_)
    rw [ho.ok, ho.tree]
    exact BW.ite (fun _ => seqLoop_eqv ps ho.s _) (fun _ => BW.ok ⟨rfl, rfl, ho.s⟩)

include H in
theorem starLoop_eqv (p : P) : ∀ n {s s' : Strm}, EquivStrm s s' → ∀ acc, BothWays PairEq (starLoop f p n s acc) (starLoop f p n s' acc)
  | 0, _, _, _, _ => BW.err _
  | n + 1, s, s', h, acc => by
    unfold starLoop
    refine BW.bind (H p s s' h) (fun o o' ho => ?_)
    rw [ho.ok, ho.tree]
    exact BW.ite (fun _ => starLoop_eqv p n ho.s _) (fun _ => BW.ok ⟨rfl, ho.s⟩)

include H in
theorem untilBreak_eqv (real : P) : ∀ n {s s' : Strm}, EquivStrm s s' → ∀ d ks,
    BothWays PairEq (untilBreak f real n s d ks) (untilBreak f real n s' d ks)
  | 0, _, _, _, _, _ => BW.err _
  | n + 1, s, s', h, d, ks => by
    unfold untilBreak
    rw [peek_eqv h]
    refine BW.bind (BW.same _) (fun t t' ht => ?_)
    subst ht
    cases breakStep t d with
    | stop => exact BW.ok ⟨rfl, h⟩
    | fail => exact BW.ok ⟨rfl, h⟩
    | take d' =>
      refine BW.ite (fun _ => ?_) (fun _ => ?_)
      · refine BW.bind (H real s s' h) (fun o o' ho => ?_)
        rw [ho.tree]
        refine BW.bind (BW.same _) (fun k k' hk => ?_)
        subst hk
        exact untilBreak_eqv real n ho.s _ _
      · refine BW.bind (BW.up (digest_eqv h 1)) (fun a b hab => ?_)
        rw [hab.1]
        exact untilBreak_eqv real n hab.2 _ _

theorem parensLoop_eqv : ∀ n {s s' : Strm}, EquivStrm s s' → ∀ d ks, BothWays PairEq (parensLoop n s d ks) (parensLoop n s' d ks)
  | 0, _, _, _, _, _ => BW.err _
  | n + 1, s, s', h, d, ks => by
    unfold parensLoop
    refine BW.ite (fun _ => ?_) (fun _ => BW.ok ⟨rfl, h⟩)
    rw [peek_eqv h]
    refine BW.bind (BW.same _) (fun t t' ht => ?_)
    subst ht
    have go : ∀ d', BothWays PairEq (do let r ← up (s.digest 1); parensLoop n r.2 d' (ks ++ [.node t (some r.1) []]))
        (do let r ← up (s'.digest 1); parensLoop n r.2 d' (ks ++ [.node t (some r.1) []])) := by
      intro d'
      refine BW.bind (BW.up (digest_eqv h 1)) (fun a b hab => ?_)
      rw [hab.1]
      exact parensLoop_eqv n hab.2 _ _
    exact BW.ite (fun _ => go _) (fun _ => BW.ite (fun _ => go _) (fun _ => BW.ite (fun _ => BW.err _) (fun _ => go _)))

theorem runParens_eqv (k : Nat) {s s' : Strm} (h : EquivStrm s s') : BothWays SameFind (runParens k s) (runParens k s') := by
  unfold runParens
  rw [peek_eqv h]
  refine BW.bind (BW.same _) (fun t t' ht => ?_)
  subst ht
  refine BW.ite (fun _ => BW.ok ⟨rfl, h⟩) (fun _ => ?_)
  refine BW.bind (BW.up (digest_eqv h 1)) (fun a b hab => ?_)
  rw [hab.1]
  refine BW.bind (parensLoop_eqv k hab.2 _ _) (fun c d hcd => ?_)
  rw [hcd.1]
  refine BW.bind (BW.same _) (fun n n' hn => ?_)
  subst hn
  exact BW.ok ⟨rfl, hcd.2⟩

theorem runListName_eqv {s s' : Strm} (h : EquivStrm s s') : BothWays SameFind (runListName s) (runListName s') := by
  unfold runListName
  rw [peekAt_eqv h]
  refine BW.bind (BW.same _) (fun t t' ht => ?_)
  subst ht
  refine BW.bind (BW.same _) (fun b b' hb => ?_)
  subst hb
  refine BW.ite (fun _ => ?_) (fun _ => BW.ok ⟨rfl, h⟩)
  rw [peekAt_eqv h]
  refine BW.bind (BW.same _) (fun t t' ht => ?_)
  subst ht
  refine BW.ite (fun _ => ?_) (fun _ => BW.ok ⟨rfl, h⟩)
  refine BW.bind (digest_eqv h 1) (fun a b hab => BW.ok ⟨?_, hab.2⟩)
  rw [hab.1]

theorem designatorEnd_eqv {s s' : Strm} (h : EquivStrm s s') : BothWays EquivStrm (designatorEnd s) (designatorEnd s') := by
  unfold designatorEnd
  have h0 : EquivStrm s.consumeUntilEol s'.consumeUntilEol := equivStrm_goto h h.hi
  refine BW.bind (moveToOpenParen_eqv h0) (fun a b hab => ?_)
  rw [hab.1]
  exact BW.ite (fun _ => putBack_eqv hab.2) (fun _ => BW.ok hab.2)

include H in
theorem runDesignator_eqv (p : P) {s s' : Strm} (h : EquivStrm s s') : BothWays SameFind (runDesignator f p s) (runDesignator f p s') := by
  unfold runDesignator
  refine BW.bind (BW.up (designatorEnd_eqv h)) (fun a b hab => ?_)
  rw [mkRange_eqv h.all, h.pos, hab.pos]
  refine BW.bind (BW.same _) (fun r r' hr => ?_)
  subst hr
  refine BW.bind (H p _ _ ⟨h.all, rfl, rfl, rfl⟩) (fun o o' ho => BW.ok ⟨ho.tree, hab⟩)

include H in
theorem runExpr_eqv (k : Nat) (tag : Int) (real : P) {s s' : Strm} (h : EquivStrm s s') :
    BothWays SameFind (runExpr f k tag real s) (runExpr f k tag real s') := by
  unfold runExpr
  rw [peek_eqv h]
  refine BW.bind (BW.same _) (fun t t' ht => ?_)
  subst ht
  refine BW.ite (fun _ => BW.ok ⟨rfl, h⟩) (fun _ => ?_)
  refine BW.bind (untilBreak_eqv H real k h _ _) (fun a b hab => ?_)
  rw [hab.1]
  rcases a with ⟨_ | (_ | ⟨x, xs⟩), as⟩
  · exact BW.ok ⟨rfl, h⟩
  · exact BW.ok ⟨rfl, hab.2⟩
  · dsimp only
    refine BW.bind (BW.same _) (fun n n' hn => ?_)
    subst hn
    exact BW.ok ⟨rfl, hab.2⟩

theorem extLoop_eqv (tag : Int) (mark : Nat) : ∀ (es : List Ext), (∀ e ∈ es, ∀ s s', EquivStrm s s' → e s' = e s) → ∀ {s s' : Strm},
    EquivStrm s s' → BothWays SameFind (extLoop tag mark es s) (extLoop tag mark es s')
  | [], _, s, s', h => BW.ok ⟨rfl, h⟩
  | e :: es, hx, s, s', h => by
    unfold extLoop
    rw [hx e (by simp) s s' h]
    refine BW.bind (BW.same _) (fun r r' hr => ?_)
    subst hr
    cases r.1 with
    | some st =>
      dsimp only
      refine BW.bind (BW.same _) (fun n n' hn => ?_)
      subst hn
      exact BW.ok ⟨rfl, equivStrm_goto h rfl⟩
    | none =>
      exact extLoop_eqv tag mark es (fun e he => hx e (by simp [he])) (equivStrm_goto (equivStrm_goto h rfl) rfl)

theorem runExts_eqv {x : Exts} (hx : Indifferent x) (a : Bool) {s s' : Strm} (h : EquivStrm s s') :
    BothWays SameFind (runExts x a s) (runExts x a s') := by
  unfold runExts
  rw [h.pos]
  exact BW.ite (fun _ => extLoop_eqv _ _ _ (fun e he => hx e (by simp [he])) h)
    (fun _ => extLoop_eqv _ _ _ (fun e he => hx e (by simp [he])) h)

include H in
theorem runBody_eqv {x : Exts} (hx : Indifferent x) (k : Nat) (b : Body) {s s' : Strm} (h : EquivStrm s s') :
    BothWays SameFind (runBody x f k b s) (runBody x f k b s') := by
  cases b with
  | comb p => exact BW.bind (H p s s' h) (fun o o' ho => BW.ok ⟨ho.tree, ho.s⟩)
  | expr tag real => exact runExpr_eqv H k tag real h
  | parens => exact runParens_eqv k h
  | listName => exact BW.up (runListName_eqv h)
  | procDesignator p => exact runDesignator_eqv H p h
  | withExts a p =>
    refine BW.bind (H p s s' h) (fun o o' ho => ?_)
    rw [ho.ok, ho.tree]
    exact BW.ite (fun _ => BW.ok ⟨rfl, ho.s⟩) (fun _ => BW.up (runExts_eqv hx a ho.s))

include H in
theorem step_eqv (g : R → Body) {x : Exts} (hx : Indifferent x) (k : Nat) (p : P) {s s' : Strm} (h : EquivStrm s s') :
    BothWays OutEq (step g x f k p s) (step g x f k p s') := by
  cases p with
  | alts tag ps =>
    refine BW.bind (altsLoop_eqv H ps h) (fun o o' ho => ?_)
    rw [ho.ok, ho.tree]
    refine BW.ite (fun _ => ?_) (fun _ => BW.ok ho)
    refine BW.bind (BW.same _) (fun n n' hn => ?_)
    subst hn
    exact BW.ok ⟨rfl, rfl, ho.s⟩
  | letter => exact BW.up (runLetter_eqv h)
  | literal w => exact BW.up (runLiteral_eqv h w)
  | name => exact BW.up (runName_eqv h)
  | neg p =>
    refine BW.bind (H p s s' h) (fun o o' ho => BW.ok ⟨ho.tree, ?_, ho.s⟩)
    show (!o'.ok) = (!o.ok)
    rw [ho.ok]
  | opt p => exact BW.bind (H p s s' h) (fun o o' ho => BW.ok ⟨ho.tree, rfl, ho.s⟩)
  | peek t => exact BW.up (runPeek_eqv h t)
  | rule r =>
    refine BW.bind (runBody_eqv H hx k (g r) h) (fun o o' ho => ?_)
    rw [ho.1]
    cases o.1 with
    | none => exact BW.ok ⟨rfl, rfl, equivStrm_goto ho.2 h.pos⟩
    | some n => exact BW.ok ⟨rfl, rfl, ho.2⟩
  | seq tag ps =>
    refine BW.bind (seqLoop_eqv H ps h _) (fun o o' ho => ?_)
    rw [ho.ok, ho.node]
    refine BW.ite (fun _ => ?_) (fun _ => BW.ok ⟨rfl, rfl, equivStrm_goto ho.s h.pos⟩)
    refine BW.bind (BW.same _) (fun n n' hn => ?_)
    subst hn
    exact BW.ok ⟨rfl, rfl, ho.s⟩
  | star p =>
    refine BW.bind (starLoop_eqv H p k h _) (fun o o' ho => ?_)
    rw [ho.1]
    refine BW.bind (BW.same _) (fun n n' hn => ?_)
    subst hn
    exact BW.ok ⟨rfl, rfl, ho.2⟩
  | tagIf tag p =>
    refine BW.bind (H p s s' h) (fun o o' ho => ?_)
    rw [ho.tree]
    cases o.tree with
    | none => exact BW.ok ⟨by rw [ho.tree], ho.ok, ho.s⟩
    | some t =>
      dsimp only
      refine BW.bind (BW.same _) (fun n n' hn => ?_)
      subst hn
      exact BW.ok ⟨rfl, ho.ok, ho.s⟩
  | tok t => exact BW.up (runTok_eqv h t)

end

theorem eval_eqv (g : R → Body) {x : Exts} (hx : Indifferent x) : ∀ n, Level (eval g x n)
  | 0, _, _, _, _ => BW.err _
  | n + 1, p, _, _, h => step_eqv (eval_eqv g hx n) g hx n p h

theorem evalRule_eqv (g : R → Body) {x : Exts} (hx : Indifferent x) (n : Nat) (r : R) {s s' : Strm} (h : EquivStrm s s') :
    BothWays SameFind (evalRule g x n r s) (evalRule g x n r s') :=
  runBody_eqv (eval_eqv g hx n) hx n (g r) h

end SP
end FLPR
