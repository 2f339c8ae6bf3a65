import Verif.StmtParser.FormAcc
import Verif.StmtParser.FormStd
import Verif.StmtParser.Static
/-!
# Forms written differently

`flat` brings a form into a shape in which sequences and choices nest to the right and nothing is left
of empty parts; `flat_is` says that this does not change what the form stands for.
-/

namespace FLPR
namespace SP
open Spec

/-- One after the other. -/
def joinF : Form → Form → Form
  | .empty, b => b
  | .seq a c, b => .seq a (joinF c b)
  | a, .empty => a
  | a, b => .seq a b

/-- One or the other. -/
def orF : Form → Form → Form
  | .never, b => b
  | .alt a c, b => .alt a (orF c b)
  | .empty, .empty => .empty
  | a, .never => a
  | a, b => .alt a b

def flat : Form → Form
  | .seq a b => joinF (flat a) (flat b)
  | .alt a b => orF (flat a) (flat b)
  | .star a => .star (flat a)
  | f => f

theorem seq_assoc {a b c : Form} {w : List Tok} :
    (Form.seq (.seq a b) c).Is w ↔ (Form.seq a (.seq b c)).Is w := by
  constructor
  · rintro ⟨u, v, rfl, ⟨x, y, rfl, h1, h2⟩, h3⟩
    exact ⟨x, y ++ v, by simp, h1, y, v, rfl, h2, h3⟩
  · rintro ⟨x, y, rfl, h1, u, v, rfl, h2, h3⟩
    exact ⟨x ++ u, v, by simp, ⟨x, u, rfl, h1, h2⟩, h3⟩

theorem seq_empty {a : Form} {w : List Tok} : (Form.seq a .empty).Is w ↔ a.Is w := by
  constructor
  · rintro ⟨u, v, rfl, h1, h2⟩
    rw [show v = [] from h2, List.append_nil]
    exact h1
  · intro h
    exact ⟨w, [], by simp, h, rfl⟩

theorem empty_seq {a : Form} {w : List Tok} : (Form.seq .empty a).Is w ↔ a.Is w := by
  constructor
  · rintro ⟨u, v, rfl, h1, h2⟩
    rw [show u = [] from h1]
    exact h2
  · intro h
    exact ⟨[], w, rfl, rfl, h⟩

theorem joinF_is : ∀ (a b : Form) (w : List Tok), (joinF a b).Is w ↔ (Form.seq a b).Is w := by
  have base : ∀ (a b : Form) (w : List Tok), (match b with | .empty => a | b => .seq a b).Is w ↔ (Form.seq a b).Is w := by
    intro a b w
    cases b with
    | empty => exact seq_empty.symm
    | _ => exact Iff.rfl
  intro a
  induction a with
  | empty => intro b w; exact empty_seq.symm
  | seq a c _ ihc =>
    intro b w
    rw [seq_assoc]
    constructor
    · rintro ⟨u, v, rfl, h1, h2⟩
      exact ⟨u, v, rfl, h1, (ihc b v).mp h2⟩
    · rintro ⟨u, v, rfl, h1, h2⟩
      exact ⟨u, v, rfl, h1, (ihc b v).mpr h2⟩
  | _ => intro b w; cases b <;> first | exact seq_empty.symm | exact Iff.rfl

theorem orF_is : ∀ (a b : Form) (w : List Tok), (orF a b).Is w ↔ (Form.alt a b).Is w := by
  intro a
  induction a with
  | never => intro b w; exact ⟨.inr, fun h => h.elim False.elim id⟩
  | alt a c _ ihc =>
    intro b w
    show (a.Is w ∨ (orF c b).Is w) ↔ ((a.Is w ∨ c.Is w) ∨ b.Is w)
    rw [ihc, or_assoc]
    exact Iff.rfl
  | _ => intro b w; cases b <;> first | exact ⟨.inl, fun h => h.elim id False.elim⟩ | exact Iff.rfl | exact or_self_iff.symm

theorem flat_is : ∀ (a : Form) (w : List Tok), (flat a).Is w ↔ a.Is w := by
  intro a
  induction a with
  | seq a b iha ihb =>
    intro w
    rw [flat, joinF_is]
    simp only [Form.Is, iha, ihb]
  | alt a b iha ihb =>
    intro w
    rw [flat, orF_is]
    simp only [Form.Is, iha, ihb]
  | star a iha =>
    intro w
    simp only [flat, Form.Is, iha]
  | _ => intro w; exact Iff.rfl

/-- Equality, as a plain function. -/
def formEq : Form → Form → Bool
  | .empty, .empty => true
  | .never, .never => true
  | .word t, .word u => t == u
  | .name, .name => true
  | .nameBut e, .nameBut f => e == f
  | .letter, .letter => true
  | .spelled v, .spelled w => v == w
  | .expr, .expr => true
  | .group, .group => true
  | .seq a b, .seq c d => formEq a c && formEq b d
  | .alt a b, .alt c d => formEq a c && formEq b d
  | .star a, .star b => formEq a b
  | _, _ => false

theorem formEq_eq : ∀ {a b : Form}, formEq a b = true → a = b := by
  intro a
  induction a with
  | seq a b iha ihb =>
    intro c h
    cases c with
    | seq c d => rw [formEq, Bool.and_eq_true] at h; rw [iha h.1, ihb h.2]
    | _ => cases h
  | alt a b iha ihb =>
    intro c h
    cases c with
    | alt c d => rw [formEq, Bool.and_eq_true] at h; rw [iha h.1, ihb h.2]
    | _ => cases h
  | star a iha =>
    intro c h
    cases c with
    | star c => rw [iha h]
    | _ => cases h
  | _ =>
    intro c h
    cases c <;> first | rfl | (exact congrArg _ (eq_of_beq h)) | cases h

/-- The two forms stand for the same. -/
def sameForm (a b : Form) : Bool := formEq (flat a) (flat b)

theorem sameForm_is {a b : Form} (h : sameForm a b = true) (w : List Tok) : a.Is w ↔ b.Is w := by
  rw [← flat_is a, ← flat_is b, formEq_eq h]

theorem but_flat (ex : List Int) : ∀ F : PForm, F.erase.but ex = F.eraseBut ex := by
  intro F
  induction F with
  | seq a b iha ihb => simp only [PForm.erase, PForm.eraseBut, Form.but, iha, ihb]
  | alt a b iha ihb => simp only [PForm.erase, PForm.eraseBut, Form.but, iha, ihb]
  | star a iha => simp only [PForm.erase, PForm.eraseBut, Form.but, iha]
  | _ => rfl

theorem joinF_but (ex : List Int) : ∀ a b : Form, (joinF a b).but ex = joinF (a.but ex) (b.but ex) := by
  intro a
  induction a with
  | empty => intro b; rfl
  | seq a c _ ihc => intro b; simp only [joinF, Form.but, ihc]
  | _ => intro b; cases b <;> rfl

theorem orF_but (ex : List Int) : ∀ a b : Form, (orF a b).but ex = orF (a.but ex) (b.but ex) := by
  intro a
  induction a with
  | never => intro b; rfl
  | alt a c _ ihc => intro b; simp only [orF, Form.but, ihc]
  | _ => intro b; cases b <;> rfl

theorem flat_but (ex : List Int) : ∀ a : Form, (flat a).but ex = flat (a.but ex) := by
  intro a
  induction a with
  | seq a b iha ihb => simp only [flat, Form.but, joinF_but, iha, ihb]
  | alt a b iha ihb => simp only [flat, Form.but, orF_but, iha, ihb]
  | star a iha => simp only [flat, Form.but, iha]
  | _ => rfl

theorem sameForm_but {a b : Form} (h : sameForm a b = true) (ex : List Int) (w : List Tok) :
    (a.but ex).Is w ↔ (b.but ex).Is w := by
  rw [← flat_is (a.but ex), ← flat_is (b.but ex), ← flat_but, ← flat_but, formEq_eq h]

def isEpsF : PForm → Bool
  | .eps => true
  | _ => false

/-- Every match of the form reaches the end of the statement. -/
def endsF : PForm → Bool
  | .seq a b => endsF b || (isEpsF b && endsF a)
  | .alt a b => endsF a && endsF b
  | .never => true
  | .peek t => t == Tag.BAD
  | _ => false

theorem endsF_sound : ∀ (F : PForm) (ts r : List Tok), endsF F = true → Nested (ts.map (·.token)) → NoBad ts →
    F.run ts = some r → r = [] := by
  intro F
  induction F with
  | seq a b iha ihb =>
    intro ts r he hn hb h
    rw [PForm.run] at h
    obtain ⟨m, h1, h2⟩ := Option.bind_eq_some_iff.mp h
    obtain ⟨w, rfl, _⟩ := run_sound a ts m hn h1
    rw [endsF, Bool.or_eq_true, Bool.and_eq_true] at he
    rcases he with he | ⟨h3, h4⟩
    · rw [List.map_append] at hn
      exact ihb m r he hn.suffix hb.right h2
    · have hm := iha _ m h4 hn hb h1
      cases b with
      | eps => injection h2 with h2; rw [← h2]; exact hm
      | _ => cases h3
  | alt a b iha ihb =>
    intro ts r he hn hb h
    rw [endsF, Bool.and_eq_true] at he
    rw [PForm.run] at h
    split at h
    · next r' hr =>
      injection h with h
      subst h
      exact iha ts _ he.1 hn hb hr
    · exact ihb ts r he.2 hn hb h
  | never => intro ts r _ _ _ h; cases h
  | peek t =>
    intro ts r he _ hb h
    rw [endsF, beq_iff_eq] at he
    rw [PForm.run] at h
    split at h
    · next ht =>
      injection h with h
      subst h
      cases ts with
      | nil => rfl
      | cons a ts => exact absurd (show a.token = Tag.BAD by rw [← he]; exact ht) (hb a (by simp))
    · cases h
  | _ => intro ts r he; cases he

/-- The form takes all its words, as far as the check can tell. -/
def takesAll (ex : List Int) (F : PForm) : Bool :=
  chk ex ⟨1, true⟩ 60 F [.stop] || chk ex ⟨2, true⟩ 60 F [.stop] || chk ex ⟨3, true⟩ 60 F [.stop] ||
    chk ex ⟨4, true⟩ 60 F [.stop]

theorem takesAll_sound {ex : List Int} {F : PForm} (h : takesAll ex F = true) {w : List Tok} (hb : NoBad w)
    (hw : (F.eraseBut ex).Is w) : F.run w = some [] := by
  simp only [takesAll, Bool.or_eq_true] at h
  rcases h with ((h | h) | h) | h <;> exact run_complete h hb hw

/-- The rule for a tag, as a form. -/
def formFor (tag : Int) : Option PForm :=
  match dispatchTable.find? (fun p => p.1 == tag) with
  | none => none
  | some p => if R.designates.contains p.2 then none else toForm 40 (.rule p.2)

/-- The rule for the tag has the form given and ends at the end of the statement. -/
def rowForm (tag : Int) (G : Form) : Bool :=
  match formFor tag with
  | none => false
  | some F => sameForm F.erase G && endsF F

/-- The rule for the tag takes all words of its form. -/
def rowTakes (ex : List Int) (tag : Int) : Bool :=
  match formFor tag with
  | none => false
  | some F => takesAll ex F

end SP
end FLPR
