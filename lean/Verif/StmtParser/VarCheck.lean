import Verif.StmtParser.VarLemmas
/-!
# Statements without variables are taken

`chkV` says that a form with variables takes all the words of the form without them: no variable is called on
the way.
-/

namespace FLPR
namespace SP
open Spec

/-- What must match before anything else happens. -/
def VForm.front : VForm → List PForm
  | .base F => [F]
  | .seq (.base F) b => F :: front b
  | .seq a _ => front a
  | _ => []

theorem front_none {k : Nat} {ts : List Tok} : ∀ {V : VForm}, (PForm.seqs V.front).run ts = none → V.exec k ts = .acts none := by
  intro V
  induction V generalizing ts with
  | base F =>
    intro h
    have : (F.run ts).bind some = none := h
    cases hr : F.run ts with
    | none => rw [VForm.exec, hr]
    | some r => rw [hr] at this; cases this
  | var => intro h; cases h
  | alt a b _ _ => intro h; cases h
  | star a _ => intro h; cases h
  | seq a b iha ihb =>
    intro h
    cases a with
    | base F =>
      have h : (F.run ts).bind (PForm.seqs b.front).run = none := h
      rw [VForm.exec, VForm.exec]
      cases hr : F.run ts with
      | none => rfl
      | some r => rw [hr] at h; exact ihb h
    | var => cases h
    | seq a1 a2 => rw [VForm.exec, iha h]; rfl
    | alt a1 a2 => cases h
    | star a1 => cases h

/-- The form does not match, and calls no variable, where the other ones do. -/
def quiet (ex : List Int) (K : Look) (n : Nat) : VForm → List PForm → List Pat → Bool
  | .base F, bs, S => rej ex K n [F] bs S
  | .seq a b, bs, S => rej ex K n (VForm.seq a b).front bs S || quiet ex K n a bs S
  | .alt a b, bs, S => quiet ex K n a bs S && quiet ex K n b bs S
  | _, _, _ => false

theorem quiet_sound {ex : List Int} {K : Look} {n k : Nat} {bs : List PForm} {S : List Pat} {w u0 u : List Tok} (hb : NoBad (w ++ u))
    (hw : ((PForm.seqs bs).eraseBut ex).Is w) (hu : SHas ex S u0 u) : ∀ {V : VForm}, quiet ex K n V bs S = true →
    V.exec k (w ++ u) = .acts none := by
  intro V
  induction V with
  | base F => intro h; exact front_none (V := .base F) ((chk_sound K n).2 _ _ _ h w u0 u hb hw hu)
  | var => intro h; cases h
  | star a _ => intro h; cases h
  | alt a b iha ihb =>
    intro h
    rw [quiet, Bool.and_eq_true] at h
    rw [VForm.exec, iha h.1, elseA, ihb h.2]
  | seq a b iha _ =>
    intro h
    rw [quiet, Bool.or_eq_true] at h
    rcases h with h | h
    · exact front_none ((chk_sound K n).2 _ _ _ h w u0 u hb hw hu)
    · rw [VForm.exec, iha h, thenA]

/-- Nothing stands in the text that the parsers take for the end of it, and the parentheses are in order. -/
def Fine (ts : List Tok) : Prop := NoBad ts ∧ Nested (ts.map (·.token))

theorem Fine.right {a b : List Tok} (h : Fine (a ++ b)) : Fine b := by
  refine ⟨h.1.right, ?_⟩
  have := h.2
  rw [List.map_append] at this
  exact this.suffix

/-- The form takes its words, where one of the patterns follows. -/
def TakesN (ex : List Int) (F : PForm) (S : List Pat) : Prop :=
  ∀ w u0 u, Fine (w ++ u) → (F.eraseBut ex).Is w → SHas ex S u0 u → F.run (w ++ u) = some u

/-- No word without variables is lost, given what is known of some forms, when one of the patterns follows. -/
def chkV (ex : List Int) (ax : PForm → List Pat → Bool) (K : Look) (n : Nat) : VForm → List Pat → Bool
  | .base F, S => ax F S || chk ex K n F S
  | .var, _ => true
  | .seq a b, S => chkV ex ax K n b S && chkV ex ax K n a (pre K b.kill S)
  | .alt a b, S => chkV ex ax K n a S && (b.kill == .never || (chkV ex ax K n b S && quiet ex K n a [b.kill] S))
  | .star a, S => chkV ex ax K n a (pre K (.star a.kill) S) && quiet ex K n a [] S

theorem chkV_sound {ex : List Int} {ax : PForm → List Pat → Bool} (hax : ∀ F S, ax F S = true → TakesN ex F S) {K : Look} {n k : Nat} : ∀ (V : VForm) (S : List Pat), chkV ex ax K n V S = true →
    ∀ w u0 u, Fine (w ++ u) → (V.kill.eraseBut ex).Is w → SHas ex S u0 u → V.exec k (w ++ u) = .acts (some u) := by
  intro V
  induction V with
  | base F =>
    intro S h w u0 u hb hw hu
    rw [chkV, Bool.or_eq_true] at h
    rcases h with h | h
    · rw [VForm.exec, hax _ _ h w u0 u hb hw hu]
    · rw [VForm.exec, (chk_sound K n).1 _ _ h w u0 u hb.1 hw hu]
  | var => intro S h w u0 u hb hw hu; exact absurd hw id
  | seq a b iha ihb =>
    intro S h w u0 u hb hw hu
    rw [chkV, Bool.and_eq_true] at h
    obtain ⟨x, y, rfl, hx, hy⟩ := hw
    rw [List.append_assoc] at hb ⊢
    rw [VForm.exec, iha _ h.2 x u0 (y ++ u) hb hx (pre_sound K b.kill S y u0 u hy hu), thenA]
    exact ihb _ h.1 y u0 u hb.right hy hu
  | alt a b iha ihb =>
    intro S h w u0 u hb hw hu
    rw [chkV, Bool.and_eq_true, Bool.or_eq_true, Bool.and_eq_true] at h
    by_cases ha : (a.kill.eraseBut ex).Is w
    · rw [VForm.exec, iha _ h.1 w u0 u hb ha hu]; rfl
    · have hbw : (b.kill.eraseBut ex).Is w := by
        rcases hw with h | h
        · exact absurd h ha
        · exact h
      rcases h.2 with h2 | h2
      · rw [show b.kill = .never by simpa using h2] at hbw
        exact absurd hbw id
      · rw [VForm.exec, quiet_sound (bs := [b.kill]) (ex := ex) hb.1 ⟨w, [], by simp, hbw, rfl⟩ hu h2.2, elseA]
        exact ihb _ h2.1 w u0 u hb hbw hu
  | star a ih =>
    intro S h w u0 u hb hw hu
    rw [chkV, Bool.and_eq_true] at h
    obtain ⟨ps, rfl, hps⟩ := hw
    rw [VForm.exec]
    have key : ∀ (ps : List (List Tok)) (m : Nat), (∀ q ∈ ps, q ≠ [] ∧ (a.kill.eraseBut ex).Is q) → Fine (ps.flatten ++ u) →
        (ps.flatten ++ u).length < m → starA (a.exec k) m (ps.flatten ++ u) = .acts (some u) := by
      intro ps
      induction ps with
      | nil =>
        intro m _ hb hm
        rw [List.flatten_nil, List.nil_append] at hb hm ⊢
        obtain ⟨m', rfl⟩ : ∃ m', m = m' + 1 := ⟨m - 1, by omega⟩
        have := quiet_sound (k := k) (w := []) (by simpa using hb.1) (show ((PForm.seqs []).eraseBut ex).Is [] from rfl) hu h.2
        rw [List.nil_append] at this
        rw [starA, this]
      | cons q ps ihp =>
        intro m hps hb hm
        obtain ⟨hq, hqa⟩ := hps q (by simp)
        rw [List.flatten_cons, List.append_assoc] at hb hm ⊢
        have hl : 0 < q.length := List.length_pos_iff.mpr hq
        rw [List.length_append] at hm
        obtain ⟨m', rfl⟩ : ∃ m', m = m' + 1 := ⟨m - 1, by omega⟩
        have hs : ((PForm.star a.kill).eraseBut ex).Is ps.flatten := ⟨ps, rfl, fun q' h' => hps q' (by simp [h'])⟩
        rw [starA, ih _ h.1 q u0 (ps.flatten ++ u) hb hqa (pre_sound K (.star a.kill) S _ u0 u hs hu)]
        simp only
        rw [if_pos (by rw [List.length_append (as := q)]; omega)]
        exact ihp m' (fun q' h' => hps q' (by simp [h'])) hb.right (by omega)
    exact key ps _ hps hb (by omega)

/-- Nothing is known. -/
def noAx : PForm → List Pat → Bool := fun _ _ => false

theorem noAx_sound {ex : List Int} : ∀ F S, noAx F S = true → TakesN ex F S := fun _ _ h => by cases h

theorem chkV_all {ax : PForm → List Pat → Bool} (hax : ∀ F S, ax F S = true → TakesN [] F S) {K : Look} {n k : Nat} {V : VForm}
    (h : chkV [] ax K n V [.stop] = true) {w : List Tok} (hb : Fine w)
    (hw : V.kill.erase.Is w) : V.exec k w = .acts (some []) := by
  have := chkV_sound hax (k := k) V [.stop] h w [] [] (by simpa using hb) ((eraseBut_nil _ _).mpr hw)
    ⟨.stop, by simp, [], [], ⟨.nil, fun _ => rfl⟩, rfl, fun k hk => by cases hk⟩
  simpa using this

/-! ### Forms without words -/

/-- The form without the parts that have no words. -/
def prune : Form → Form
  | .seq a b => if prune a = .never ∨ prune b = .never then .never else .seq (prune a) (prune b)
  | .alt a b => if prune a = .never then prune b else if prune b = .never then prune a else .alt (prune a) (prune b)
  | .star a => if prune a = .never then .empty else .star (prune a)
  | F => F

theorem prune_is : ∀ (F : Form) (w : List Tok), (prune F).Is w ↔ F.Is w := by
  intro F
  induction F with
  | seq a b iha ihb =>
    intro w
    rw [prune]
    split
    · next h =>
      constructor
      · intro h; exact absurd h id
      · rintro ⟨u, v, rfl, h1, h2⟩
        rcases h with h | h
        · have := (iha u).mpr h1; rw [h] at this; exact this
        · have := (ihb v).mpr h2; rw [h] at this; exact this
    · constructor
      · rintro ⟨u, v, rfl, h1, h2⟩; exact ⟨u, v, rfl, (iha u).mp h1, (ihb v).mp h2⟩
      · rintro ⟨u, v, rfl, h1, h2⟩; exact ⟨u, v, rfl, (iha u).mpr h1, (ihb v).mpr h2⟩
  | alt a b iha ihb =>
    intro w
    rw [prune]
    split
    · next h =>
      constructor
      · intro hw; exact .inr ((ihb w).mp hw)
      · rintro (hw | hw)
        · have := (iha w).mpr hw; rw [h] at this; exact absurd this id
        · exact (ihb w).mpr hw
    · split
      · next h =>
        constructor
        · intro hw; exact .inl ((iha w).mp hw)
        · rintro (hw | hw)
          · exact (iha w).mpr hw
          · have := (ihb w).mpr hw; rw [h] at this; exact absurd this id
      · exact ⟨fun h => h.imp (iha w).mp (ihb w).mp, fun h => h.imp (iha w).mpr (ihb w).mpr⟩
  | star a ih =>
    intro w
    rw [prune]
    split
    · next h =>
      constructor
      · intro hw; exact ⟨[], by rw [show w = [] from hw]; rfl, by simp⟩
      · rintro ⟨ps, rfl, hps⟩
        cases ps with
        | nil => exact rfl
        | cons q ps =>
          have := (ih q).mpr (hps q (by simp)).2
          rw [h] at this
          exact absurd this id
    · constructor
      · rintro ⟨ps, rfl, hps⟩; exact ⟨ps, rfl, fun q hq => ⟨(hps q hq).1, (ih q).mp (hps q hq).2⟩⟩
      · rintro ⟨ps, rfl, hps⟩; exact ⟨ps, rfl, fun q hq => ⟨(hps q hq).1, (ih q).mpr (hps q hq).2⟩⟩
  | _ => intro w; exact Iff.rfl

end SP
end FLPR
