import Verif.StmtParser.FormCheck
/-!
# A check that a form takes every word of its language

`chk` looks at what may come next and finds out whether the choices a form commits itself to ever lose a
word of its language; `run_complete` says that they do not when `chk` says so.
-/

namespace FLPR
namespace SP
open Spec

variable {ex : List Int}

/-- A pattern of what may come; `m`: how many of the parts belong to what comes after the form in question. -/
structure Pat where
  ss : List Sym
  o : Bool
  m : Option Nat
  deriving DecidableEq, Repr

/-- Anything. -/
def Pat.any : Pat := ⟨[], true, none⟩
/-- Nothing. -/
def Pat.stop : Pat := ⟨[], false, none⟩

/-- `d` of the marked parts are no longer told apart. -/
def dropM (d : Nat) : Option Nat → Option Nat
  | none => none
  | some k => if d ≤ k then some (k - d) else none

/-- At most `K` parts. -/
def consN (K : Nat) (a : Sym) (p : Pat) : Pat :=
  if K ≤ p.ss.length then ⟨(a :: p.ss).take K, true, dropM (p.ss.length + 1 - K) p.m⟩ else ⟨a :: p.ss, p.o, p.m⟩

/-- How far to look: at most `len` parts, and, with `cut`, not past a closing parenthesis or bracket. -/
structure Look where
  len : Nat
  cut : Bool

def Look.at (K : Look) (a : Sym) : Nat :=
  if K.cut && (a == .word Tag.TK_PARENR || a == .word Tag.TK_BRACKETR) then 1 else K.len

def consP (K : Look) (a : Sym) (p : Pat) : Pat := consN (K.at a) a p

def markEq : Option Nat → Option Nat → Bool
  | none, none => true
  | some a, some b => a == b
  | _, _ => false

/-- Equality, as a plain function. -/
def Pat.eqb (p q : Pat) : Bool := symsEq p.ss q.ss && p.o == q.o && markEq p.m q.m

theorem Pat.eqb_eq {p q : Pat} (h : p.eqb q = true) : p = q := by
  obtain ⟨s, o, m⟩ := p
  obtain ⟨s', o', m'⟩ := q
  simp only [Pat.eqb, Bool.and_eq_true, beq_iff_eq] at h
  obtain ⟨⟨h1, h2⟩, h3⟩ := h
  have h3 : m = m' := by
    cases m <;> cases m' <;> first | rfl | cases h3 | (rw [eq_of_beq h3])
  rw [symsEq_eq h1, h2, h3]

def insP (p : Pat) (l : List Pat) : List Pat := if l.any p.eqb then l else p :: l
def nub (l : List Pat) : List Pat := l.foldr insP []

theorem mem_nub {p : Pat} {l : List Pat} (h : p ∈ l) : p ∈ nub l := by
  induction l with
  | nil => cases h
  | cons q l ih =>
    show p ∈ insP q (nub l)
    rw [insP]
    rcases List.mem_cons.mp h with rfl | h
    · split
      · next hc =>
        obtain ⟨q', h1, h2⟩ := List.any_eq_true.mp hc
        rw [Pat.eqb_eq h2]
        exact h1
      · simp
    · split
      · exact ih h
      · exact List.mem_cons_of_mem _ (ih h)

/-- How a word of the form followed by one of the patterns begins. -/
def pre (K : Look) : PForm → List Pat → List Pat
  | .eps, S => S
  | .never, _ => []
  | .tok t, S => S.map (consP K (.word t))
  | .name, S => S.map (consP K .name)
  | .letter, S => S.map (consP K .letter)
  | .spelled w, S => S.map (consP K (.spelled w))
  | .expr, S => S.map (consP K .expr)
  | .group, S => S.map (consP K .group)
  | .listName, S => S.map (consP K .name)
  | .seq a b, S => nub (pre K a (pre K b S))
  | .alt a b, S => nub (pre K a S ++ pre K b S)
  | .star a, S => nub (S ++ pre K a [.any])
  | .peek _, S => S
  | .notPeek _, S => S

/-- Everything belongs to what comes after. -/
def markP (p : Pat) : Pat := ⟨p.ss, p.o, some p.ss.length⟩

/-- `u` fits one of the patterns, and the marked parts are `u0`. -/
def SHas (ex : List Int) (S : List Pat) (u0 u : List Tok) : Prop :=
  ∃ p ∈ S, ∃ segs tl, FitsP ex p.ss p.o segs tl ∧ u = flatU segs tl ∧ 
    ∀ k, p.m = some k → k ≤ segs.length ∧ u0 = flatU (lastN k segs) tl

theorem forall2_take {α β : Type} {R : α → β → Prop} {a : List α} {b : List β} (h : List.Forall₂ R a b) :
    ∀ n, List.Forall₂ R (a.take n) (b.take n) := by
  induction h with
  | nil => intro n; simp
  | cons h _ ih =>
    intro n
    cases n with
    | zero => simp
    | succ n => simpa using ⟨h, ih n⟩

theorem shas_consN {K : Nat} {a : Sym} {S : List Pat} {w u0 u : List Tok} (hw : a.Is ex w) (hu : SHas ex S u0 u) :
    SHas ex (S.map (consN K a)) u0 (w ++ u) := by
  obtain ⟨p, hp, segs, tl, h1, rfl, h3⟩ := hu
  refine ⟨consN K a p, List.mem_map_of_mem hp, ?_⟩
  have h0 : FitsP ex (a :: p.ss) p.o (w :: segs) tl := ⟨.cons hw h1.1, h1.2⟩
  rw [consN]
  split
  · refine ⟨(w :: segs).take K, ((w :: segs).drop K).flatten ++ tl, ⟨forall2_take h0.1 K, by simp⟩, ?_, fun k hk => ?_⟩
    · rw [← flatU_cons, flatU, flatU, ← List.append_assoc, ← List.flatten_append, List.take_append_drop]
    · next hK =>
      have hlen := fits_length h1
      cases hm : p.m with
      | none => simp [hm, dropM] at hk
      | some j =>
        rw [hm, dropM] at hk
        split at hk
        · next hd =>
          obtain ⟨hl, h4⟩ := h3 j hm
          have hk : j - (p.ss.length + 1 - K) = k := Option.some.inj hk
          have hl1 : ((w :: segs).take K).length = K := by rw [List.length_take, List.length_cons]; omega
          refine ⟨by rw [hl1]; omega, ?_⟩
          rw [h4, ← lastN_cons (a := w) hl, flatU, flatU, ← List.append_assoc, ← List.flatten_append]
          congr 2
          rw [lastN, lastN, hl1, List.length_cons]
          conv => lhs; rw [← List.take_append_drop K (w :: segs)]
          rw [List.drop_append_of_le_length (by rw [hl1]; omega)]
          congr 2
          omega
        · cases hk
  · refine ⟨w :: segs, tl, h0, by rw [flatU_cons], fun k hk => ?_⟩
    obtain ⟨hl, h4⟩ := h3 k hk
    exact ⟨by simp; omega, by rw [lastN_cons hl]; exact h4⟩

theorem shas_cons {K : Look} {a : Sym} {S : List Pat} {w u0 u : List Tok} (hw : a.Is ex w) (hu : SHas ex S u0 u) :
    SHas ex (S.map (consP K a)) u0 (w ++ u) := shas_consN hw hu

theorem shas_nub {S : List Pat} {u0 u : List Tok} (h : SHas ex S u0 u) : SHas ex (nub S) u0 u := by
  obtain ⟨p, hp, h⟩ := h
  exact ⟨p, mem_nub hp, h⟩

theorem shas_mark {S : List Pat} {u0 u : List Tok} (h : SHas ex S u0 u) : SHas ex (S.map markP) u u := by
  obtain ⟨p, hp, segs, tl, h1, rfl, h3⟩ := h
  refine ⟨markP p, List.mem_map_of_mem hp, segs, tl, h1, rfl, fun k hk => ?_⟩
  have hk : k = segs.length := by rw [fits_length h1]; exact (Option.some.inj hk).symm
  subst hk
  exact ⟨le_rfl, by simp [lastN]⟩

theorem pre_sound (K : Look) : ∀ (F : PForm) (S : List Pat) (w u0 u : List Tok), (F.eraseBut ex).Is w → SHas ex S u0 u →
    SHas ex (pre K F S) u0 (w ++ u) := by
  intro F
  induction F with
  | eps => intro S w u0 u h hu; rw [show w = [] from h]; exact hu
  | never => intro S w u0 u h hu; exact absurd h id
  | tok t => intro S w u0 u h hu; exact shas_cons (a := .word t) h hu
  | name => intro S w u0 u h hu; exact shas_cons (a := .name) h hu
  | letter => intro S w u0 u h hu; exact shas_cons (a := .letter) h hu
  | spelled s => intro S w u0 u h hu; exact shas_cons (a := .spelled s) h hu
  | expr => intro S w u0 u h hu; exact shas_cons (a := .expr) h hu
  | group => intro S w u0 u h hu; exact shas_cons (a := .group) h hu
  | listName => intro S w u0 u h hu; exact shas_cons (a := .name) h hu
  | seq a b iha ihb =>
    intro S w u0 u h hu
    obtain ⟨x, y, rfl, hx, hy⟩ := h
    rw [List.append_assoc]
    exact shas_nub (iha _ _ _ _ hx (ihb _ _ _ _ hy hu))
  | alt a b iha ihb =>
    intro S w u0 u h hu
    apply shas_nub
    rcases h with h | h
    · obtain ⟨p, hp, hh⟩ := iha _ _ _ _ h hu
      exact ⟨p, List.mem_append_left _ hp, hh⟩
    · obtain ⟨p, hp, hh⟩ := ihb _ _ _ _ h hu
      exact ⟨p, List.mem_append_right _ hp, hh⟩
  | star a ih =>
    intro S w u0 u h hu
    apply shas_nub
    obtain ⟨ps, rfl, hps⟩ := h
    cases ps with
    | nil =>
      obtain ⟨p, hp, hh⟩ := hu
      exact ⟨p, List.mem_append_left _ hp, hh⟩
    | cons q ps =>
      have hany : SHas ex [Pat.any] u0 (ps.flatten ++ u) :=
        ⟨.any, by simp, [], ps.flatten ++ u, ⟨.nil, by simp [Pat.any]⟩, rfl, fun k hk => by cases hk⟩
      obtain ⟨p, hp, hh⟩ := ih [.any] q u0 (ps.flatten ++ u) (hps q (by simp)).2 hany
      refine ⟨p, List.mem_append_right _ hp, ?_⟩
      simpa using hh
  | peek t => intro S w u0 u h hu; rw [show w = [] from h]; exact hu
  | notPeek t => intro S w u0 u h hu; rw [show w = [] from h]; exact hu

/-- An expression ends before this. -/
def stopP (p : Pat) : Bool :=
  match p.ss, p.o with
  | [], false => true
  | .word t :: _, _ => exprStop t
  | _, _ => false

theorem stopP_sound {p : Pat} {segs : List (List Tok)} {tl : List Tok} (h : FitsP ex p.ss p.o segs tl)
    (hp : stopP p = true) : exprStop (PForm.headTag (flatU segs tl)) = true := by
  obtain ⟨ss, o, m⟩ := p
  cases ss with
  | nil =>
    obtain ⟨rfl, h2⟩ := fits_nil h
    cases o with
    | false => rw [h2 rfl]; rfl
    | true => cases hp
  | cons a as =>
    cases a with
    | word t =>
      obtain ⟨w, segs', rfl, ⟨x, rfl, hx⟩, _⟩ := fits_cons h
      show exprStop x.token = true
      rw [hx]; exact hp
    | _ => cases hp

/-- The form does not match. -/
def failsP (ex : List Int) (a : PForm) (p : Pat) : Bool :=
  match srun ex a p.ss p.o with
  | none => false
  | some l => l.all (fun out => out.isNone)

def headTail : List Sym → Bool
  | .tail :: _ => true
  | _ => false

theorem headTail_ne {r : List Sym} (h : headTail r = false) : r.head? ≠ some .tail := by
  intro hc
  cases r with
  | nil => cases hc
  | cons a r => injection hc with hc; rw [hc] at h; cases h

theorem markEq_eq {a b : Option Nat} (h : markEq a b = true) : a = b := by
  cases a <;> cases b <;> first | rfl | cases h | (exact congrArg _ (eq_of_beq h))

/-- The form does not match, or it leaves just the marked parts. -/
def exactP (ex : List Int) (a : PForm) (p : Pat) : Bool :=
  match srun ex a p.ss p.o with
  | none => false
  | some l => l.all (fun out => match out with
    | none => true
    | some r => markEq p.m (some r.length) && !headTail r)

theorem failsP_sound {a : PForm} {S : List Pat} {u0 u : List Tok} (h : S.all (failsP ex a) = true) (hu : SHas ex S u0 u)
    (hb : NoBad u) : a.run u = none := by
  obtain ⟨p, hp, segs, tl, h1, rfl, _⟩ := hu
  have := List.all_eq_true.mp h p hp
  rw [failsP] at this
  split at this
  · cases this
  · next l hl =>
    obtain ⟨out, hm, ho⟩ := srun_sound a p.ss p.o segs tl h1 hb l hl
    have hn := List.all_eq_true.mp this out hm
    rcases ho with ⟨_, h2⟩ | ⟨r, segs', rfl, _⟩
    · exact h2
    · cases hn

theorem exactP_sound {a : PForm} {S : List Pat} {u0 u : List Tok} (h : S.all (exactP ex a) = true) (hu : SHas ex S u0 u)
    (hb : NoBad u) : a.run u = none ∨ a.run u = some u0 := by
  obtain ⟨p, hp, segs, tl, h1, rfl, h3⟩ := hu
  have := List.all_eq_true.mp h p hp
  rw [exactP] at this
  split at this
  · cases this
  · next l hl =>
    obtain ⟨out, hm, ho⟩ := srun_sound a p.ss p.o segs tl h1 hb l hl
    have hn := List.all_eq_true.mp this out hm
    rcases ho with ⟨_, h2⟩ | ⟨r, segs', rfl, ht⟩
    · exact .inl h2
    · simp only [Bool.and_eq_true, Bool.not_eq_true'] at hn
      obtain ⟨k1, k2⟩ := h3 _ (markEq_eq hn.1)
      right
      rw [ht.run, k2, ← ht.same r.length le_rfl (fun hc => absurd hc (headTail_ne hn.2)), lastN, fits_length ht.fits, Nat.sub_self,
        List.drop_zero]

def isNameF : PForm → Bool
  | .name => true
  | .listName => true
  | _ => false

def isEmptyF : PForm → Bool
  | .eps => true
  | .peek _ => true
  | .notPeek _ => true
  | _ => false

/-- The two stand for the same form. -/
def sameF : PForm → PForm → Bool
  | .never, .never => true
  | .tok t, .tok u => t == u
  | .letter, .letter => true
  | .spelled v, .spelled w => v == w
  | .expr, .expr => true
  | .group, .group => true
  | .seq a b, .seq c d => sameF a c && sameF b d
  | .alt a b, .alt c d => sameF a c && sameF b d
  | .star a, .star b => sameF a b
  | a, b => (isNameF a && isNameF b) || (isEmptyF a && isEmptyF b)

theorem sameF_sound : ∀ {a b : PForm}, sameF a b = true → a.eraseBut ex = b.eraseBut ex := by
  have name : ∀ {a : PForm}, isNameF a = true → a.eraseBut ex = .nameBut ex := by
    intro a h; cases a <;> first | rfl | cases h
  have empty : ∀ {a : PForm}, isEmptyF a = true → a.eraseBut ex = .empty := by
    intro a h; cases a <;> first | rfl | cases h
  intro a
  induction a with
  | seq a b iha ihb =>
    intro c h
    cases c with
    | seq c d =>
      rw [sameF, Bool.and_eq_true] at h
      rw [PForm.eraseBut, PForm.eraseBut, iha h.1, ihb h.2]
    | _ => simp [sameF, isNameF, isEmptyF] at h
  | alt a b iha ihb =>
    intro c h
    cases c with
    | alt c d =>
      rw [sameF, Bool.and_eq_true] at h
      rw [PForm.eraseBut, PForm.eraseBut, iha h.1, ihb h.2]
    | _ => simp [sameF, isNameF, isEmptyF] at h
  | star a iha =>
    intro c h
    cases c with
    | star c =>
      rw [sameF] at h
      rw [PForm.eraseBut, PForm.eraseBut, iha h]
    | _ => simp [sameF, isNameF, isEmptyF] at h
  | tok t =>
    intro c h
    cases c with
    | tok u => rw [sameF, beq_iff_eq] at h; rw [h]
    | _ => simp [sameF, isNameF, isEmptyF] at h
  | spelled t =>
    intro c h
    cases c with
    | spelled u => rw [sameF, beq_iff_eq] at h; rw [h]
    | _ => simp [sameF, isNameF, isEmptyF] at h
  | _ =>
    intro c h
    cases c <;> first | rfl | simp [sameF, isNameF, isEmptyF] at h

def groupExpr : PForm → PForm → Bool
  | .group, .expr => true
  | _, _ => false

/-- Every word of `b` is a word of `a`. -/
def subF (b : PForm) : PForm → Bool
  | .alt a1 a2 => sameF b (.alt a1 a2) || subF b a1 || subF b a2
  | a => sameF b a || groupExpr b a

theorem group_expr {w : List Int} (h : IsGroup w) : IsExpr w := by
  obtain ⟨a, ha, rfl⟩ := h
  exact ⟨.paren ha .nil, _, _, rfl, by decide, by decide⟩

theorem subF_sound {b : PForm} {w : List Tok} (hw : (b.eraseBut ex).Is w) : ∀ a, subF b a = true → (a.eraseBut ex).Is w := by
  have base : ∀ a : PForm, (sameF b a || groupExpr b a) = true → (a.eraseBut ex).Is w := by
    intro a h
    rw [Bool.or_eq_true] at h
    rcases h with h | h
    · rw [← sameF_sound h]; exact hw
    · cases b <;> cases a <;> first | exact group_expr hw | cases h
  intro a
  induction a with
  | alt a1 a2 i1 i2 =>
    intro h
    simp only [subF, Bool.or_eq_true] at h
    rcases h with (h | h) | h
    · rw [← sameF_sound h]; exact hw
    · exact .inl (i1 h)
    · exact .inr (i2 h)
  | _ => exact fun h => base _ h

/-- A sufficient test for every word of `b` being a word of `a`, alternative by alternative. -/
def subB : PForm → PForm → Bool
  | .never, _ => true
  | .alt b1 b2, a => subF (.alt b1 b2) a || (subB b1 a && subB b2 a)
  | b, a => subF b a

theorem subB_sound {w : List Tok} : ∀ b a, subB b a = true → (b.eraseBut ex).Is w → (a.eraseBut ex).Is w := by
  intro b
  induction b with
  | never => intro a _ hw; exact absurd hw id
  | alt b1 b2 i1 i2 =>
    intro a h hw
    simp only [subB, Bool.or_eq_true, Bool.and_eq_true] at h
    rcases h with h | ⟨h1, h2⟩
    · exact subF_sound hw a h
    · rcases hw with hw | hw
      · exact i1 a h1 hw
      · exact i2 a h2 hw
  | _ => exact fun a h hw => subF_sound hw a h

mutual
/-- No word of the form is lost when one of the patterns follows. -/
def chk (ex : List Int) (K : Look) : Nat → PForm → List Pat → Bool
  | 0, _, _ => false
  | n + 1, F, S =>
    match F with
    | .expr => S.all stopP
    | .listName => S.all (fun p => hin p.ss p.o == some true)
    | .seq a b => chk ex K n b S && chk ex K n a (pre K b S)
    | .alt a b =>
      (chk ex K n a S && (subB b a || (chk ex K n b S &&
        ((pre K b (S.map markP)).all (exactP ex a) || rej ex K n [a] [b] S)))) ||
      (subB a b && chk ex K n b (S.filter (fun p => !chk ex K n a [p])) &&
        ((pre K b ((S.filter (fun p => !chk ex K n a [p])).map markP)).all (exactP ex a)) &&
        (subB b a || (chk ex K n b (S.filter (fun p => chk ex K n a [p])) &&
          ((pre K b ((S.filter (fun p => chk ex K n a [p])).map markP)).all (exactP ex a)))))
    | .star a => chk ex K n a (pre K (.star a) S) && S.all (failsP ex a)
    | .peek t => S.all (fun p => headIsP ex t p.ss p.o == some true)
    | .notPeek t => S.all (fun p => headIsP ex t p.ss p.o == some false)
    | _ => true
/-- No word of the second form followed by one of the patterns begins with something the first form takes. -/
def rej (ex : List Int) (K : Look) : Nat → List PForm → List PForm → List Pat → Bool
  | 0, _, _, _ => false
  | n + 1, as, bs, S =>
    (pre K (PForm.seqs bs) S).all (failsP ex (PForm.seqs as)) ||
    match as, bs with
    | .eps :: as, bs => rej ex K n as bs S
    | .seq x y :: as, bs => rej ex K n (x :: y :: as) bs S
    | as, .eps :: bs => rej ex K n as bs S
    | as, .seq x y :: bs => rej ex K n as (x :: y :: bs) S
    | x :: as, y :: bs =>
      (sameF x y && chk ex K n x (pre K (PForm.seqs bs) S) && rej ex K n as bs S) ||
      (match x with
        | .alt x1 x2 => rej ex K n (x1 :: as) (y :: bs) S && rej ex K n (x2 :: as) (y :: bs) S
        | _ => false) ||
      (match y with
        | .alt y1 y2 => rej ex K n (x :: as) (y1 :: bs) S && rej ex K n (x :: as) (y2 :: bs) S
        | _ => false)
    | _, _ => false
end

theorem all_shas {S : List Pat} {f : Pat → Bool} {u0 u : List Tok} (h : S.all f = true) (hu : SHas ex S u0 u) :
    ∃ p, f p = true ∧ ∃ segs tl, FitsP ex p.ss p.o segs tl ∧ u = flatU segs tl := by
  obtain ⟨p, hp, segs, tl, h1, h2, _⟩ := hu
  exact ⟨p, List.all_eq_true.mp h p hp, segs, tl, h1, h2⟩

theorem shas_one {S : List Pat} {u0 u : List Tok} (h : SHas ex S u0 u) : ∃ p ∈ S, SHas ex [p] u0 u := by
  obtain ⟨p, hp, h⟩ := h
  exact ⟨p, hp, p, by simp, h⟩

theorem shas_in {S : List Pat} {p : Pat} {u0 u : List Tok} (h : SHas ex [p] u0 u) (hp : p ∈ S) : SHas ex S u0 u := by
  obtain ⟨q, hq, h⟩ := h
  rw [List.mem_singleton] at hq
  subst hq
  exact ⟨q, hp, h⟩

/-- The form takes its words. -/
def TakesW (ex : List Int) (F : PForm) (S : List Pat) : Prop :=
  ∀ w u0 u, NoBad (w ++ u) → (F.eraseBut ex).Is w → SHas ex S u0 u → F.run (w ++ u) = some u

/-- The first forms do not match where the second ones do. -/
def RejectsW (ex : List Int) (as bs : List PForm) (S : List Pat) : Prop :=
  ∀ w u0 u, NoBad (w ++ u) → ((PForm.seqs bs).eraseBut ex).Is w → SHas ex S u0 u → (PForm.seqs as).run (w ++ u) = none

theorem seqs_flat {x y : PForm} {bs : List PForm} {w : List Tok}
    (h : ((PForm.seqs (.seq x y :: bs)).eraseBut ex).Is w) : ((PForm.seqs (x :: y :: bs)).eraseBut ex).Is w := by
  obtain ⟨p, q, rfl, ⟨p1, p2, rfl, h1, h2⟩, h3⟩ := h
  exact ⟨p1, p2 ++ q, by simp, h1, p2, q, rfl, h2, h3⟩

theorem run_flat {x y : PForm} {as : List PForm} {u : List Tok} :
    (PForm.seqs (.seq x y :: as)).run u = (PForm.seqs (x :: y :: as)).run u := by
  show (((x.run u).bind y.run).bind (PForm.seqs as).run) = (x.run u).bind (fun v => (y.run v).bind (PForm.seqs as).run)
  rw [Option.bind_assoc]

theorem chk_sound (K : Look) : ∀ n, (∀ F S, chk ex K n F S = true → TakesW ex F S) ∧
    (∀ as bs S, rej ex K n as bs S = true → RejectsW ex as bs S) := by
  have one : ∀ (q : Tok → Bool) (x : Tok) (u : List Tok), q x = true → PForm.take1 q ([x] ++ u) = some u := by
    intro q x u h
    simp [PForm.take1, h]
  intro n
  induction n with
  | zero => exact ⟨fun F S h => by simp [chk] at h, fun as bs S h => by simp [rej] at h⟩
  | succ n ih =>
    obtain ⟨ihc, ihr⟩ := ih
    constructor
    · intro F S hc w u0 u hb h hu
      cases F with
      | eps => rw [show w = [] from h]; rfl
      | never => exact absurd h id
      | tok t =>
        obtain ⟨x, rfl, hx⟩ := h
        exact one _ x u (by simp [hx])
      | name =>
        obtain ⟨x, rfl, hx⟩ := h
        exact one _ x u (by simp [hx])
      | letter =>
        obtain ⟨x, rfl, hx, hl⟩ := h
        exact one _ x u (by simp [hx, hl])
      | spelled s =>
        obtain ⟨x, rfl, hx, hl⟩ := h
        exact one _ x u (by simp [hx, hl])
      | expr =>
        obtain ⟨p, hp, segs, tl, hh, rfl⟩ := all_shas hc hu
        exact runExprL_complete hb.left h (stopP_sound hh hp)
      | group => exact runGroupL_complete h
      | listName =>
        obtain ⟨p, hp, segs, tl, hh, rfl⟩ := all_shas hc hu
        rw [beq_iff_eq] at hp
        obtain ⟨x, rfl, hx⟩ := h
        rw [PForm.run, one _ x _ (by simp [hx])]
        simp only [Option.bind_some]
        rw [hin_sound hh hp]
        rfl
      | seq a b =>
        simp only [chk, Bool.and_eq_true] at hc
        obtain ⟨x, y, rfl, hx, hy⟩ := h
        rw [List.append_assoc] at hb ⊢
        rw [PForm.run, ihc _ _ hc.2 x u0 (y ++ u) hb hx (pre_sound K b S y u0 u hy hu)]
        exact ihc _ _ hc.1 y u0 u hb.right hy hu
      | alt a b =>
        simp only [chk, Bool.or_eq_true (_ && _) (_ && _)] at hc
        rcases hc with hc | hc
        · simp only [Bool.and_eq_true, Bool.or_eq_true] at hc
          obtain ⟨h1, h2⟩ := hc
          by_cases ha : (a.eraseBut ex).Is w
          · rw [PForm.run, ihc _ _ h1 w u0 u hb ha hu]
          · have hbw : (b.eraseBut ex).Is w := by
              rcases h with h | h
              · exact absurd h ha
              · exact h
            rcases h2 with h2 | ⟨h2, h3⟩
            · exact absurd (subB_sound b a h2 hbw) ha
            · have hb2 := ihc _ _ h2 w u0 u hb hbw hu
              rcases h3 with h3 | h3
              · rcases exactP_sound h3 (pre_sound K b _ w u u hbw (shas_mark hu)) hb with h4 | h4
                · rw [PForm.run, h4]; exact hb2
                · rw [PForm.run, h4]
              · have h4 := ihr _ _ _ h3 w u0 u hb ⟨w, [], by simp, hbw, rfl⟩ hu
                have h5 : a.run (w ++ u) = none := by
                  have : (PForm.seqs [a]).run (w ++ u) = (a.run (w ++ u)).bind some := rfl
                  rw [this] at h4
                  cases hr : a.run (w ++ u) with
                  | none => rfl
                  | some r => rw [hr] at h4; cases h4
                rw [PForm.run, h5]; exact hb2
        · simp only [Bool.and_eq_true, Bool.or_eq_true] at hc
          obtain ⟨⟨⟨h1, h2⟩, h3⟩, h4⟩ := hc
          obtain ⟨p, hp, hup⟩ := shas_one hu
          have go : ∀ (q : Pat → Bool), q p = true → (b.eraseBut ex).Is w → chk ex K n b (S.filter q) = true →
              (pre K b ((S.filter q).map markP)).all (exactP ex a) = true → (PForm.alt a b).run (w ++ u) = some u := by
            intro q hq hbw h7 h5
            have hin := shas_in hup (List.mem_filter.mpr ⟨hp, hq⟩)
            rcases exactP_sound h5 (pre_sound K b _ w u u hbw (shas_mark hin)) hb with h6 | h6
            · rw [PForm.run, h6]; exact ihc _ _ h7 w u0 u hb hbw hin
            · rw [PForm.run, h6]
          by_cases hcp : chk ex K n a [p] = true
          · by_cases ha : (a.eraseBut ex).Is w
            · rw [PForm.run, ihc _ _ hcp w u0 u hb ha hup]
            · have hbw : (b.eraseBut ex).Is w := by
                rcases h with h | h
                · exact absurd h ha
                · exact h
              rcases h4 with h4 | h4
              · exact absurd (subB_sound b a h4 hbw) ha
              · exact go _ hcp hbw h4.1 h4.2
          · have hbw : (b.eraseBut ex).Is w := by
              rcases h with h | h
              · exact subB_sound a b h1 h
              · exact h
            exact go _ (by simpa using hcp) hbw h2 h3
      | star a =>
        simp only [chk, Bool.and_eq_true] at hc
        obtain ⟨h1, h2⟩ := hc
        obtain ⟨ps, rfl, hps⟩ := h
        have key : ∀ (ps : List (List Tok)) (m : Nat), (∀ q ∈ ps, q ≠ [] ∧ (a.eraseBut ex).Is q) → NoBad (ps.flatten ++ u) →
            (ps.flatten ++ u).length ≤ m → PForm.starL a.run m (ps.flatten ++ u) = u := by
          intro ps
          induction ps with
          | nil =>
            intro m _ hb _
            rw [List.flatten_nil, List.nil_append] at hb ⊢
            cases m with
            | zero => rfl
            | succ m => rw [PForm.starL, failsP_sound h2 hu hb]
          | cons q ps ihp =>
            intro m hps hb hm
            obtain ⟨hq, hqa⟩ := hps q (by simp)
            rw [List.flatten_cons, List.append_assoc] at hb hm ⊢
            have hl : 0 < q.length := List.length_pos_iff.mpr hq
            rw [List.length_append] at hm
            obtain ⟨m', rfl⟩ : ∃ m', m = m' + 1 := ⟨m - 1, by omega⟩
            have hs : ((PForm.star a).eraseBut ex).Is ps.flatten := ⟨ps, rfl, fun q' h' => hps q' (by simp [h'])⟩
            rw [PForm.starL, ihc _ _ h1 q u0 (ps.flatten ++ u) hb hqa (pre_sound K (.star a) S _ u0 u hs hu)]
            simp only
            rw [if_pos (by rw [List.length_append (as := q)]; omega)]
            exact ihp m' (fun q' h' => hps q' (by simp [h'])) hb.right (by omega)
        rw [PForm.run, key ps _ hps hb le_rfl]
      | peek t =>
        rw [show w = [] from h, List.nil_append] at hb ⊢
        obtain ⟨p, hp, segs, tl, hh, rfl⟩ := all_shas hc hu
        rw [beq_iff_eq] at hp
        have := headIsP_sound hh hb hp
        rw [decide_eq_true_iff] at this
        rw [PForm.run, if_pos this]
      | notPeek t =>
        rw [show w = [] from h, List.nil_append] at hb ⊢
        obtain ⟨p, hp, segs, tl, hh, rfl⟩ := all_shas hc hu
        rw [beq_iff_eq] at hp
        have := headIsP_sound hh hb hp
        rw [decide_eq_false_iff_not] at this
        rw [PForm.run, if_neg this]
    · intro as bs S hr w u0 u hb h hu
      rw [rej.eq_def] at hr
      simp only [Bool.or_eq_true] at hr
      rcases hr with hr | hr
      · exact failsP_sound hr (pre_sound K _ S w u0 u h hu) hb
      · split at hr
        · next as bs => exact ihr _ _ _ hr w u0 u hb h hu
        · next x y as bs => rw [run_flat]; exact ihr _ _ _ hr w u0 u hb h hu
        · next as bs _ _ =>
          obtain ⟨p, q, rfl, h1, h2⟩ := h
          rw [show p = [] from h1] at hb ⊢
          exact ihr _ _ _ hr q u0 u hb h2 hu
        · next as x y bs _ _ => exact ihr _ _ _ hr w u0 u hb (seqs_flat h) hu
        · next x as y bs _ _ _ _ =>
          simp only [Bool.or_eq_true, Bool.and_eq_true] at hr
          rcases hr with (⟨⟨e, h1⟩, h2⟩ | hr) | hr
          · obtain ⟨p, q, rfl, h3, h4⟩ := h
            have h3 : (y.eraseBut ex).Is p := h3
            rw [← sameF_sound e] at h3
            rw [List.append_assoc] at hb ⊢
            show (x.run (p ++ (q ++ u))).bind (PForm.seqs as).run = none
            rw [ihc _ _ h1 p u0 (q ++ u) hb h3 (pre_sound K _ S q u0 u h4 hu)]
            exact ihr _ _ _ h2 q u0 u hb.right h4 hu
          · split at hr
            · next x1 x2 _ _ =>
              rw [Bool.and_eq_true] at hr
              have k1 := ihr _ _ _ hr.1 w u0 u hb h hu
              have k2 := ihr _ _ _ hr.2 w u0 u hb h hu
              show ((PForm.alt x1 x2).run (w ++ u)).bind (PForm.seqs as).run = none
              have k1 : (x1.run (w ++ u)).bind (PForm.seqs as).run = none := k1
              have k2 : (x2.run (w ++ u)).bind (PForm.seqs as).run = none := k2
              rw [PForm.run]
              split
              · next r hr => rw [hr] at k1; exact k1
              · exact k2
            · cases hr
          · split at hr
            · rw [Bool.and_eq_true] at hr
              obtain ⟨p, q, rfl, h3, h4⟩ := h
              rcases h3 with h3 | h3
              · exact ihr _ _ _ hr.1 _ u0 u hb ⟨p, q, rfl, h3, h4⟩ hu
              · exact ihr _ _ _ hr.2 _ u0 u hb ⟨p, q, rfl, h3, h4⟩ hu
            · cases hr
        · cases hr

/-- A form that passes the check takes every word of its language. -/
theorem run_complete {K : Look} {n : Nat} {F : PForm} (h : chk ex K n F [.stop] = true) {w : List Tok} (hb : NoBad w)
    (hw : (F.eraseBut ex).Is w) : F.run w = some [] := by
  have := (chk_sound K n).1 F [.stop] h w [] [] (by simpa using hb) hw
    ⟨.stop, by simp, [], [], ⟨.nil, fun _ => rfl⟩, rfl, fun k hk => by cases hk⟩
  simpa using this

end SP
end FLPR
