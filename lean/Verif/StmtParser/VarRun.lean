import Verif.StmtParser.DesigMain
/-!
# Parsers that call `variable` anywhere, as functions on lists of tokens

`variable` looks for the last pair of parentheses of the statement.  Where the statement goes on behind the
opening one of that pair, the range it makes ends before it begins, and the parser does not return.
-/

namespace FLPR
namespace SP
open Spec

/-- The statement ends in a pair of parentheses that takes `k` tokens, or, with `k = 0`, in something else. -/
def LastPair (s : Strm) (k : Nat) : Prop :=
  (k = 0 ∧ ¬ EndsInParen s) ∨
    ∃ i, s.lo ≤ i ∧ i < s.hi ∧ ParenPair (tagsOf s) i (s.hi - 1) ∧ k = s.hi - i

theorem lastPair_goto {s : Strm} {k : Nat} (q : Nat) (h : LastPair s k) : LastPair (s.goto q) k := h

theorem designatorEnd_last {s : Strm} {k : Nat} (h : GoodStmt s) (hk : LastPair s k) :
    designatorEnd s = .ok (s.goto (s.hi - k)) ∧ k ≤ s.hi := by
  have hlen := h.hi_len
  have hlo := h.lo_pos
  have hhi := h.pos_hi
  have hg : GoodStream (s.goto s.hi) := by
    refine ⟨by simp; omega, by simp, by simpa using hlen, ?_⟩
    intro t ht
    exact (h.tags t.token (List.mem_map.mpr ⟨t, ht, rfl⟩)).2.1
  obtain ⟨hyes, hno⟩ := C24_open (s.goto s.hi) hg
  simp only [Strm.goto_lo, Strm.goto_pos, Strm.goto_goto] at hyes hno
  rw [designatorEnd, Strm.consumeUntilEol]
  rcases hk with ⟨rfl, hends⟩ | ⟨i, h1, h2, hpair, rfl⟩
  · have hnp : ¬ ∃ i, s.lo ≤ i ∧ s.lo < s.hi ∧ ParenPair (tagsOf s) i (s.hi - 1) := by
      rintro ⟨i, _, h2, h3⟩
      apply hends
      refine ⟨h2, ?_⟩
      obtain ⟨mid, hj, _, ha⟩ := parenPair_at.mp h3
      rw [At.cons, At.append, At.cons] at ha
      rw [hj]
      exact ha.2.2.1
    rw [hno hnp, Res.ok_bind, if_neg (by simp)]
    have hends' : ¬ (s.lo < s.hi ∧ (tagsOf (s.goto s.hi))[s.hi - 1]? = some Tag.TK_PARENR) := hends
    exact ⟨congrArg Except.ok (if_neg hends'), Nat.zero_le _⟩
  · rw [hyes i h1 (by clear hyes hno; omega) hpair, Res.ok_bind, if_pos rfl, Strm.putBack_ok (by simp; omega)]
    clear hyes hno
    refine ⟨congrArg (fun q => Except.ok (s.goto q)) ?_, by omega⟩
    show i + 1 - 1 = s.hi - (s.hi - i)
    omega

theorem endsAt_last {s : Strm} {k : Nat} (h : GoodStmt s) (hk : LastPair s k) (hl : k ≤ (restOf s).length) :
    EndsAt s ((restOf s).take ((restOf s).length - k)) ((restOf s).drop ((restOf s).length - k)) := by
  obtain ⟨h1, h2⟩ := designatorEnd_last h hk
  have hlen := restOf_length h
  have hhi := h.pos_hi
  have hu : ((restOf s).take ((restOf s).length - k)).length = s.hi - s.pos - k := by
    rw [List.length_take]; omega
  refine ⟨(List.take_append_drop _ _).symm, ?_, by omega⟩
  rw [h1, hu]
  exact congrArg (fun q => Except.ok (s.goto q)) (by omega)

theorem stuck_last {x : Exts} {s : Strm} {k : Nat} (h : GoodStmt s) (hk : LastPair s k) (hl : (restOf s).length < k) :
    Stuck x (.rule .procedure_designator) s := by
  intro n o ho
  cases n with
  | zero => cases ho
  | succ n =>
    obtain ⟨hd, hle⟩ := designatorEnd_last h hk
    have hlen := restOf_length h
    rw [eval, step, show plainBody .procedure_designator = .procDesignator designatorP from rfl, runBody, runDesignator, hd] at ho
    simp only [up_of_ok, PRes.ok_bind, Strm.goto_pos] at ho
    rw [Strm.mkRange, if_neg (by omega)] at ho
    cases ho

theorem stuck_variable {x : Exts} {s : Strm} (h : Stuck x (.rule .procedure_designator) s) : Stuck x (.rule .«variable») s := by
  refine stuck_rule (q := .alts Tag.SG_VARIABLE [.rule .function_reference, .rule .designator]) rfl (stuck_alts ?_)
  exact stuck_rule (q := .seq Tag.SG_FUNCTION_REFERENCE [.rule .procedure_designator,
    .parens Tag.HOIST [.opt (.list Tag.SG_ACTUAL_ARG_SPEC_LIST (.rule .actual_arg_spec))]]) rfl (stuck_seq (.inl h))

/-! ### What a parser does: it does not return, or it matches or not -/

inductive Act where
  | stuck
  | acts (r : Option (List Tok))

def Acts (x : Exts) (p : P) (s : Strm) : Act → Prop
  | .stuck => Stuck x p s
  | .acts r => Does x p s r

/-- What `variable` does in a statement whose last pair of parentheses takes `k` tokens. -/
def varL (k : Nat) (ts : List Tok) : Act :=
  if ts.length < k then .stuck else .acts (variableL (ts.take (ts.length - k)) (ts.drop (ts.length - k)))

theorem acts_variable {x : Exts} (hx : GoodExts x) {s : Strm} {k : Nat} (h : GoodStmt s) (hk : LastPair s k) :
    Acts x (.rule .«variable») s (varL k (restOf s)) := by
  rw [varL]
  split
  · next hl => exact stuck_variable (stuck_last h hk hl)
  · next hl => exact does_variable hx h (endsAt_last h hk (by omega))

/-- Forms with variables. -/
inductive VForm where
  | base (F : PForm)
  | var
  | seq (a b : VForm)
  | alt (a b : VForm)
  | star (a : VForm)
  deriving DecidableEq, Repr

namespace VForm

def seqs : List VForm → VForm
  | [] => base .eps
  | a :: as => seq a (seqs as)

def alts : List VForm → VForm
  | [] => base .never
  | a :: as => alt a (alts as)

end VForm

/-- Again and again, as long as it matches and something is taken. -/
def starA (f : List Tok → Act) : Nat → List Tok → Act
  | 0, _ => .stuck
  | n + 1, ts =>
    match f ts with
    | .stuck => .stuck
    | .acts none => .acts (some ts)
    | .acts (some r) => if r.length < ts.length then starA f n r else .stuck

def thenA (a : Act) (f : List Tok → Act) : Act :=
  match a with
  | .stuck => .stuck
  | .acts none => .acts none
  | .acts (some r) => f r

def elseA (a b : Act) : Act :=
  match a with
  | .stuck => .stuck
  | .acts none => b
  | .acts (some r) => .acts (some r)

/-- What such a form does, in a statement whose last pair of parentheses takes `k` tokens. -/
def VForm.exec (k : Nat) : VForm → List Tok → Act
  | .base F, ts => .acts (F.run ts)
  | .var, ts => varL k ts
  | .seq a b, ts => thenA (exec k a ts) (exec k b)
  | .alt a b, ts => elseA (exec k a ts) (exec k b ts)
  | .star a, ts => starA (exec k a) (ts.length + 1) ts

/-- Some forms, all of them there. -/
def vformsOf (f : P → Option VForm) : List P → Option (List VForm)
  | [] => some []
  | p :: ps => (f p).bind (fun a => (vformsOf f ps).map (a :: ·))

/-- A parser term as a form with variables. -/
def toV : Nat → P → Option VForm
  | 0, _ => none
  | k + 1, p =>
    match (if p.good && !p.calls (fun r => R.calling.contains r) then toFormG plainBody (k + 1) p else none) with
    | some F => some (.base F)
    | none =>
      match p with
      | .alts _ ps => (vformsOf (toV k) ps).map VForm.alts
      | .seq _ ps => if P.goodAll ps then (vformsOf (toV k) ps).map VForm.seqs else none
      | .opt p => (toV k p).map (fun a => .alt a (.base .eps))
      | .star p => (toV k p).map .star
      | .tagIf _ p => toV k p
      | .rule r =>
        if r = .«variable» then some .var
        else
          match plainBody r with
          | .comb q => if q.withTree then toV k q else none
          | _ => none
      | _ => none

/-! ### Composition -/

/-- What the members of a sequence do one after the other. -/
def SeqActs (x : Exts) (ps : List P) (s : Strm) : Act → Prop
  | .stuck => StuckSeq x ps s
  | .acts r => SeqSpec x ps s r

theorem acts_of_seq {x : Exts} (hx : GoodExts x) {s : Strm} (hs : GoodStmt s) {ps : List P} (hg : P.goodAll ps = true) {tag : Int} {a : Act}
    (h : SeqActs x ps s a) : Acts x (.seq tag ps) s a := by
  cases a with
  | stuck => exact stuck_seq h
  | acts r => exact does_seq hx hs hg h

theorem seqActs_cons {x : Exts} {s0 : Strm} (hs0 : GoodStmt s0) {p : P} {ps : List P} {q : Nat} (hq : s0.lo ≤ q) {a : Act}
    {f : List Tok → Act} (hp : Acts x p (s0.goto q) a)
    (h : ∀ q', q ≤ q' → q' ≤ s0.hi → a = .acts (some (restOf (s0.goto q'))) → SeqActs x ps (s0.goto q') (f (restOf (s0.goto q')))) :
    SeqActs x (p :: ps) (s0.goto q) (thenA a f) := by
  cases a with
  | stuck => exact .inl hp
  | acts r =>
    cases r with
    | none => exact ⟨none, hp, fun _ => rfl, fun q _ _ h => by cases h⟩
    | some r =>
      rw [thenA]
      obtain ⟨Q, hQ⟩ : ∃ Q : Prop, Q = ∃ q', q ≤ q' ∧ q' ≤ s0.hi ∧ r = restOf (s0.goto q') := ⟨_, rfl⟩
      by_cases hQ' : Q
      · rw [hQ] at hQ'
        obtain ⟨q', h5, h6, rfl⟩ := hQ'
        have := h q' h5 h6 rfl
        have uniq : ∀ q2, q ≤ q2 → q2 ≤ s0.hi → restOf (s0.goto q') = restOf (s0.goto q2) → q' = q2 :=
          fun q2 h7 h8 h9 => rest_pos hs0 (by omega) h6 (by omega) h8 h9
        cases hx2 : f (restOf (s0.goto q')) with
        | stuck =>
          rw [hx2] at this
          refine .inr ⟨_, hp, fun q2 h7 h8 h9 => ?_⟩
          have := uniq q2 h7 h8 h9
          subst this
          assumption
        | acts r =>
          rw [hx2] at this
          refine ⟨_, hp, (fun h => (by cases h)), fun q2 h7 h8 h9 => ?_⟩
          injection h9 with h9
          have := uniq q2 h7 h8 h9
          subst this
          assumption
      · rw [hQ] at hQ'
        cases hx2 : f r with
        | stuck => exact .inr ⟨_, hp, fun q2 h7 h8 h9 => absurd ⟨q2, h7, h8, h9⟩ hQ'⟩
        | acts r2 =>
          refine ⟨_, hp, (fun h => (by cases h)), fun q2 h7 h8 h9 => ?_⟩
          injection h9 with h9
          exact absurd ⟨q2, h7, h8, h9⟩ hQ'

theorem seqActs_forms {x : Exts} {s0 : Strm} {k : Nat} {f : P → Option VForm} (hs0 : GoodStmt s0) {b : Nat} (hb : s0.lo ≤ b)
    (hf : ∀ p V q, f p = some V → b ≤ q → q ≤ s0.hi → Acts x p (s0.goto q) (V.exec k (restOf (s0.goto q)))) :
    ∀ ps Vs q, vformsOf f ps = some Vs → b ≤ q → q ≤ s0.hi →
      SeqActs x ps (s0.goto q) ((VForm.seqs Vs).exec k (restOf (s0.goto q))) := by
  intro ps
  induction ps with
  | nil =>
    intro Vs q h1 h3 h4
    injection h1 with h1; subst h1
    exact rfl
  | cons p ps ih =>
    intro Vs q h1 h3 h4
    rw [vformsOf] at h1
    obtain ⟨V, e1, e2⟩ := Option.bind_eq_some_iff.mp h1
    obtain ⟨Ws, e3, rfl⟩ := Option.map_eq_some_iff.mp e2
    exact seqActs_cons hs0 (le_trans hb h3) (hf p V q e1 h3 h4) fun q' h5 h6 _ => ih Ws q' e3 (le_trans h3 h5) h6

theorem acts_seq {x : Exts} (hx : GoodExts x) {s0 : Strm} {k : Nat} {f : P → Option VForm} (hs0 : GoodStmt s0) {b : Nat} (hb : s0.lo ≤ b)
    (hf : ∀ p V q, f p = some V → b ≤ q → q ≤ s0.hi → Acts x p (s0.goto q) (V.exec k (restOf (s0.goto q)))) (tag : Int) :
    ∀ ps Vs q, vformsOf f ps = some Vs → P.goodAll ps = true → b ≤ q → q ≤ s0.hi →
      Acts x (.seq tag ps) (s0.goto q) ((VForm.seqs Vs).exec k (restOf (s0.goto q))) :=
  fun ps Vs q h1 h2 h3 h4 => acts_of_seq hx (GoodStmt_goto hs0 (le_trans hb h3) h4) h2 (seqActs_forms hs0 hb hf ps Vs q h1 h3 h4)

/-- A choice with a member that does not return, none before it matching. -/
theorem stuck_alts_cons {x : Exts} {p : P} {ps : List P} {s : Strm} (hp : Does x p s none)
    (h : ∀ n o, altsLoop (eval plainBody x n) ps s ≠ .ok o) : ∀ n o, altsLoop (eval plainBody x n) (p :: ps) s ≠ .ok o := by
  intro n o ho
  rw [altsLoop] at ho
  pbind ho with a ha
  obtain ⟨e1, e2⟩ := (hp n).2 a ha
  rw [e1, if_neg (by simp), e2] at ho
  exact h n o ho

theorem acts_alts {x : Exts} {s : Strm} {k : Nat} {f : P → Option VForm}
    (hf : ∀ p V, f p = some V → Acts x p s (V.exec k (restOf s))) (tag : Int) :
    ∀ ps Vs, vformsOf f ps = some Vs → Acts x (.alts tag ps) s ((VForm.alts Vs).exec k (restOf s)) := by
  suffices key : ∀ ps Vs, vformsOf f ps = some Vs →
      match (VForm.alts Vs).exec k (restOf s) with
      | .stuck => ∀ n o, altsLoop (eval plainBody x n) ps s ≠ .ok o
      | .acts r => AltSpec x s ps r by
    intro ps Vs h1
    have := key ps Vs h1
    cases he : (VForm.alts Vs).exec k (restOf s) with
    | stuck =>
      rw [he] at this
      intro n o ho
      cases n with
      | zero => cases ho
      | succ n =>
        rw [eval, step] at ho
        pbind ho with a ha
        exact this n a ha
    | acts r => rw [he] at this; exact does_alts this
  intro ps
  induction ps with
  | nil =>
    intro Vs h1
    injection h1 with h1; subst h1
    exact rfl
  | cons p ps ih =>
    intro Vs h1
    rw [vformsOf] at h1
    obtain ⟨V, e1, e2⟩ := Option.bind_eq_some_iff.mp h1
    obtain ⟨Ws, e3, rfl⟩ := Option.map_eq_some_iff.mp e2
    have hp := hf p V e1
    have := ih Ws e3
    rw [VForm.alts, VForm.exec]
    cases he : V.exec k (restOf s) with
    | stuck =>
      rw [he] at hp
      intro n o ho
      rw [altsLoop] at ho
      pbind ho with a ha
      exact hp n a ha
    | acts r =>
      rw [he] at hp
      cases r with
      | none =>
        rw [elseA]
        cases hx2 : (VForm.alts Ws).exec k (restOf s) with
        | stuck => rw [hx2] at this; exact stuck_alts_cons hp this
        | acts r => rw [hx2] at this; exact ⟨none, hp, fun _ => this, fun h => absurd rfl h⟩
      | some r => exact ⟨some r, hp, fun h => (by cases h), fun _ => rfl⟩

theorem acts_opt {x : Exts} {s : Strm} {p : P} {a : Act} (hs : GoodStmt s) (h : Acts x p s a) :
    Acts x (.opt p) s (elseA a (.acts (some (restOf s)))) := by
  cases a with
  | stuck =>
    intro n o ho
    cases n with
    | zero => cases ho
    | succ n =>
      rw [eval, step] at ho
      pbind ho with o1 h1
      exact h n o1 h1
  | acts r =>
    have hd : Does x (.opt p) s (some (r.getD (restOf s))) := by
      intro n
      cases n with
      | zero => exact ⟨fun h => (by cases h), fun o h => (by cases h)⟩
      | succ n =>
        obtain ⟨h1, h2⟩ := h n
        rw [eval, step]
        constructor
        · intro hub
          rcases bind_ub hub with hub | ⟨_, _, hub⟩
          · exact h1 hub
          · cases hub
        · intro o ho
          pbind ho with o1 ho1
          injection ho with ho; subst ho
          have ha := h2 o1 ho1
          cases r with
          | none => rw [show o1.s = s from ha.2]; exact agrees_refl hs
          | some r => rw [ha.1] at ha; exact ha
    cases r with
    | none => exact hd
    | some r => exact hd

theorem acts_tagIf {x : Exts} {s : Strm} {p : P} {a : Act} {tag : Int} (h : Acts x p s a) : Acts x (.tagIf tag p) s a := by
  cases a with
  | stuck =>
    intro n o ho
    cases n with
    | zero => cases ho
    | succ n =>
      rw [eval, step] at ho
      pbind ho with o1 h1
      exact h n o1 h1
  | acts r =>
    intro n
    cases n with
    | zero => exact ⟨fun h => (by cases h), fun o h => (by cases h)⟩
    | succ n =>
      obtain ⟨h1, h2⟩ := h n
      rw [eval, step]
      constructor
      · intro hub
        rcases bind_ub hub with hub | ⟨o1, _, hub⟩
        · exact h1 hub
        · split at hub
          · rcases bind_ub hub with hub | ⟨_, _, hub⟩
            · exact cover_ub _ (up_ub hub)
            · cases hub
          · cases hub
      · intro o ho
        pbind ho with o1 ho1
        have ha := h2 o1 ho1
        split at ho
        · pbind ho with m hm
          injection ho with ho; subst ho
          exact ha
        · injection ho with ho; subst ho
          exact ha

theorem acts_rule {x : Exts} {s : Strm} {r : R} {q : P} (hq : plainBody r = .comb q) (ht : q.withTree = true) {a : Act}
    (h : Acts x q s a) : Acts x (.rule r) s a := by
  cases a with
  | stuck => exact stuck_rule hq h
  | acts r => exact does_rule hq ht h

theorem acts_star {x : Exts} {s0 : Strm} {p : P} {f : List Tok → Act} (hs0 : GoodStmt s0) {b : Nat} (hb : s0.lo ≤ b)
    (hf : ∀ q, b ≤ q → q ≤ s0.hi → Acts x p (s0.goto q) (f (restOf (s0.goto q)))) {q : Nat} (h1 : b ≤ q) (h2 : q ≤ s0.hi) :
    Acts x (.star p) (s0.goto q) (starA f ((restOf (s0.goto q)).length + 1) (restOf (s0.goto q))) := by
  have key : ∀ m q, b ≤ q → q ≤ s0.hi → (restOf (s0.goto q)).length < m →
      match starA f m (restOf (s0.goto q)) with
      | .stuck => ∀ n j acc w, starLoop (eval plainBody x n) p j (s0.goto q) acc ≠ .ok w
      | .acts r => ∀ n j acc, starLoop (eval plainBody x n) p j (s0.goto q) acc ≠ .error (.fail .ub) ∧
          ∀ w, starLoop (eval plainBody x n) p j (s0.goto q) acc = .ok w → Agrees r (s0.goto q) true w.2 := by
    intro m
    induction m with
    | zero => intro q _ _ h; omega
    | succ m ih =>
      intro q h1 h2 hm
      have hp := hf q h1 h2
      rw [starA]
      cases he : f (restOf (s0.goto q)) with
      | stuck =>
        rw [he] at hp
        intro n j acc w hw
        cases j with
        | zero => cases hw
        | succ j =>
          rw [starLoop] at hw
          pbind hw with o ho
          exact hp n o ho
      | acts r =>
        rw [he] at hp
        cases r with
        | none =>
          intro n j acc
          obtain ⟨d1, d2⟩ := hp n
          cases j with
          | zero => exact ⟨fun h => (by cases h), fun w h => (by cases h)⟩
          | succ j =>
            rw [starLoop]
            constructor
            · intro hub
              rcases bind_ub hub with hub | ⟨o, ho, hub⟩
              · exact d1 hub
              · rw [(d2 o ho).1, if_neg (by simp)] at hub
                cases hub
            · intro w hw
              pbind hw with o ho
              obtain ⟨e1, e2⟩ := d2 o ho
              rw [e1, if_neg (by simp)] at hw
              injection hw with hw; subst hw
              rw [e2]
              exact agrees_refl (GoodStmt_goto hs0 (le_trans hb h1) h2)
        | some r =>
          have next : ∀ n o, eval plainBody x n p (s0.goto q) = .ok o →
              o.ok = true ∧ ∃ q', o.s = s0.goto q' ∧ q ≤ q' ∧ q' ≤ s0.hi ∧ restOf (s0.goto q') = r := by
            intro n o ho
            exact (hp n).2 o ho
          show (match (if r.length < (restOf (s0.goto q)).length then starA f m r else .stuck) with
            | .stuck => ∀ n j acc w, starLoop (eval plainBody x n) p j (s0.goto q) acc ≠ .ok w
            | .acts r => ∀ n j acc, starLoop (eval plainBody x n) p j (s0.goto q) acc ≠ .error (.fail .ub) ∧
                ∀ w, starLoop (eval plainBody x n) p j (s0.goto q) acc = .ok w → Agrees r (s0.goto q) true w.2)
          by_cases hlt : r.length < (restOf (s0.goto q)).length
          · rw [if_pos hlt]
            by_cases hQ : ∃ q', q ≤ q' ∧ q' ≤ s0.hi ∧ restOf (s0.goto q') = r
            · obtain ⟨q', h3, h4, rfl⟩ := hQ
              have hi := ih q' (by omega) h4 (by omega)
              have uniq : ∀ n o, eval plainBody x n p (s0.goto q) = .ok o → o.ok = true ∧ o.s = s0.goto q' := by
                intro n o ho
                obtain ⟨e1, q2, e2, e3, e4, e5⟩ := next n o ho
                have := rest_pos hs0 (by omega) e4 (by omega) h4 e5
                subst this
                exact ⟨e1, e2⟩
              cases he2 : starA f m (restOf (s0.goto q')) with
              | stuck =>
                rw [he2] at hi
                intro n j acc w hw
                cases j with
                | zero => cases hw
                | succ j =>
                  rw [starLoop] at hw
                  pbind hw with o ho
                  obtain ⟨e1, e2⟩ := uniq n o ho
                  rw [e1, if_pos rfl, e2] at hw
                  exact hi n j _ w hw
              | acts r2 =>
                rw [he2] at hi
                intro n j acc
                cases j with
                | zero => exact ⟨fun h => (by cases h), fun w h => (by cases h)⟩
                | succ j =>
                  rw [starLoop]
                  constructor
                  · intro hub
                    rcases bind_ub hub with hub | ⟨o, ho, hub⟩
                    · exact (hp n).1 hub
                    · obtain ⟨e1, e2⟩ := uniq n o ho
                      rw [e1, if_pos rfl, e2] at hub
                      exact (hi n j _).1 hub
                  · intro w hw
                    pbind hw with o ho
                    obtain ⟨e1, e2⟩ := uniq n o ho
                    rw [e1, if_pos rfl, e2] at hw
                    have := (hi n j _).2 w hw
                    exact agrees_trans (s := s0.goto q) h3 this rfl
            · have never : ∀ n o, eval plainBody x n p (s0.goto q) ≠ .ok o := by
                intro n o ho
                obtain ⟨_, q2, _, e3, e4, e5⟩ := next n o ho
                exact hQ ⟨q2, e3, e4, e5⟩
              have no : ∀ n j acc w, starLoop (eval plainBody x n) p j (s0.goto q) acc ≠ .ok w := by
                intro n j acc w hw
                cases j with
                | zero => cases hw
                | succ j =>
                  rw [starLoop] at hw
                  pbind hw with o ho
                  exact never n o ho
              cases starA f m r with
              | stuck => exact no
              | acts r2 =>
                intro n j acc
                refine ⟨fun hub => ?_, fun w hw => absurd hw (no n j acc w)⟩
                cases j with
                | zero => cases hub
                | succ j =>
                  rw [starLoop] at hub
                  rcases bind_ub hub with hub | ⟨o, ho, hub⟩
                  · exact (hp n).1 hub
                  · exact never n o ho
          · rw [if_neg hlt]
            intro n j
            induction j with
            | zero => intro acc w hw; cases hw
            | succ j ihj =>
              intro acc w hw
              rw [starLoop] at hw
              pbind hw with o ho
              obtain ⟨e1, q2, e2, e3, e4, e5⟩ := next n o ho
              have l1 := restOf_length (GoodStmt_goto hs0 (le_trans hb h1) h2)
              have l2 := restOf_length (GoodStmt_goto hs0 (q := q2) (by omega) e4)
              rw [e5] at l2
              have l1 : (restOf (s0.goto q)).length = s0.hi - q := l1
              have l2 : r.length = s0.hi - q2 := l2
              have : q2 = q := by omega
              subst this
              rw [e1, if_pos rfl, e2] at hw
              exact ihj _ w hw
  have := key _ q h1 h2 (Nat.lt_succ_self _)
  cases he : starA f ((restOf (s0.goto q)).length + 1) (restOf (s0.goto q)) with
  | stuck =>
    rw [he] at this
    intro n o ho
    cases n with
    | zero => cases ho
    | succ n =>
      rw [eval, step] at ho
      pbind ho with w hw
      exact this n n _ w hw
  | acts r =>
    rw [he] at this
    intro n
    cases n with
    | zero => exact ⟨fun h => (by cases h), fun o h => (by cases h)⟩
    | succ n =>
      obtain ⟨d1, d2⟩ := this n n (.node Tag.HOIST none [])
      rw [eval, step]
      constructor
      · intro hub
        rcases bind_ub hub with hub | ⟨w, _, hub⟩
        · exact d1 hub
        · rcases bind_ub hub with hub | ⟨_, _, hub⟩
          · exact cover_ub _ (up_ub hub)
          · cases hub
      · intro o ho
        pbind ho with w hw
        pbind ho with m hm
        injection ho with ho; subst ho
        exact d2 w hw

/-- A parser that has a form with variables does what the form says. -/
theorem acts_form {x : Exts} (hx : GoodExts x) {s : Strm} {k : Nat} (hs : GoodStmt s) (hk : LastPair s k) :
    ∀ j p V q, toV j p = some V → s.lo ≤ q → q ≤ s.hi → Acts x p (s.goto q) (V.exec k (restOf (s.goto q))) := by
  intro j
  induction j with
  | zero => intro p V q h; cases h
  | succ j ih =>
    intro p V q h h1 h2
    have hg := GoodStmt_goto hs h1 h2
    rw [toV.eq_def] at h
    dsimp only at h
    split at h
    · next F hF =>
      injection h with h; subst h
      split at hF
      · next hc =>
        rw [Bool.and_eq_true, Bool.not_eq_true'] at hc
        exact does_form hx hF hc.1 hc.2 hg
      · cases hF
    · split at h
      · obtain ⟨Vs, e1, rfl⟩ := Option.map_eq_some_iff.mp h
        exact acts_alts (fun p V e => ih p V q e h1 h2) _ _ _ e1
      · split at h
        · next hgood =>
          obtain ⟨Vs, e1, rfl⟩ := Option.map_eq_some_iff.mp h
          exact acts_seq hx hs (le_refl _) (fun p V q e h1 h2 => ih p V q e h1 h2) _ _ _ q e1 hgood h1 h2
        · cases h
      · obtain ⟨V', e1, rfl⟩ := Option.map_eq_some_iff.mp h
        exact acts_opt hg (ih _ V' q e1 h1 h2)
      · obtain ⟨V', e1, rfl⟩ := Option.map_eq_some_iff.mp h
        exact acts_star hs (le_refl _) (fun q h1 h2 => ih _ V' q e1 h1 h2) h1 h2
      · exact acts_tagIf (ih _ V q h h1 h2)
      · split at h
        · next hr =>
          injection h with h; subst h hr
          exact acts_variable hx hg (lastPair_goto q hk)
        · split at h
          · next hb =>
            split at h
            · next ht => exact acts_rule hb ht (ih _ V q h h1 h2)
            · cases h
          · cases h
      · cases h

end SP
end FLPR
