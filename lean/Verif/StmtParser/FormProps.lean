import Verif.StmtParser.FormTable
import Verif.StmtParser.ParserProps
/-!
# C63: which statements the statement parsers recognise (src/flpr/parse_stmt.cc)
-/

namespace FLPR
namespace Spec
open SP

/-- `parse_stmt_dispatch(tag, ts)` returns a tree. -/
def Recognised (x : Exts) (tag : Int) (s : Strm) : Prop := ∃ n t, DispatchReturns x tag s (.ok (some n, t))

end Spec

namespace SP
open Spec

theorem good_noBad {s : Strm} (h : GoodStmt s) : NoBad (restOf s) := by
  intro a ha
  have h1 : a ∈ s.all := List.mem_of_mem_take (List.mem_of_mem_drop ha)
  exact (h.tags a.token (List.mem_map_of_mem h1)).2.1

theorem recognised_run {x : Exts} (hx : GoodExts x) (hf : x.Forward) {tag : Int} {F : PForm}
    (hF : formFor tag = some F) {s : Strm} (hs : GoodStmt s) :
    Recognised x tag s ↔ ∃ r, F.run (restOf s) = some r := by
  unfold Recognised
  simp only [dispatch_iff]
  rw [formFor] at hF
  cases hq : dispatchTable.find? (fun q => q.1 == tag) with
  | none => rw [hq] at hF; cases hF
  | some q =>
    rw [hq] at hF
    simp only at hF ⊢
    split at hF
    · cases hF
    · next hd =>
      have key : ∀ tree t, Returns x q.2 s (.ok (tree, t)) →
          Agrees (F.run (restOf s)) s tree.isSome (match tree with | none => t.goto s.pos | some _ => t) := by
        intro tree t h
        obtain ⟨n, hn⟩ := h.eval
        refine eval_run x (n + 1) 40 (.rule q.2) F s ⟨tree, tree.isSome, _⟩ hF hs ?_
        rw [eval, step]
        rw [evalRule] at hn
        rw [hn]
        cases tree <;> rfl
      constructor
      · rintro ⟨n, t, h⟩
        have h1 := key _ _ h
        obtain ⟨_, _, _, _, hr⟩ := agrees_some h1 rfl
        exact ⟨_, hr⟩
      · rintro ⟨r, hr⟩
        obtain ⟨res, hres, _⟩ := C52_terminates x hf q.2 s
        obtain ⟨⟨tree, t⟩, rfl⟩ := C55_defined_partial x hx q.2 s hs (.inl (by simpa using hd)) res hres
        cases tree with
        | some n => exact ⟨n, t, hres⟩
        | none =>
          have h1 := key _ _ hres
          obtain ⟨h2, _⟩ := agrees_none h1 rfl
          rw [hr] at h2; cases h2

/-- What follows from the comparison of a form: recognised statements have it. -/
theorem row_sound {x : Exts} (hx : GoodExts x) (hf : x.Forward) {tag : Int} {G : Form}
    (h : rowForm tag G = true) {s : Strm} (hs : GoodStmt s) (hr : Recognised x tag s) : G.Is (restOf s) := by
  rw [rowForm] at h
  cases hF : formFor tag with
  | none => rw [hF] at h; cases h
  | some F =>
    rw [hF] at h
    simp only [Bool.and_eq_true] at h
    obtain ⟨r, hrun⟩ := (recognised_run hx hf hF hs).mp hr
    have hn := good_nested hs
    have e := endsF_sound F _ _ h.2 hn (good_noBad hs) hrun
    subst e
    obtain ⟨w, hw, hw2⟩ := run_sound F _ _ hn hrun
    rw [List.append_nil] at hw
    rw [hw]
    exact (sameForm_is h.1 w).mp hw2

theorem row_complete {x : Exts} (hx : GoodExts x) (hf : x.Forward) {tag : Int} {G : Form} {ex : List Int}
    (h : rowForm tag G = true) (ht : rowTakes ex tag = true) {s : Strm} (hs : GoodStmt s)
    (hw : (G.but ex).Is (restOf s)) : Recognised x tag s := by
  rw [rowForm] at h
  rw [rowTakes] at ht
  cases hF : formFor tag with
  | none => rw [hF] at h; cases h
  | some F =>
    rw [hF] at h ht
    simp only [Bool.and_eq_true] at h
    refine (recognised_run hx hf hF hs).mpr ⟨[], takesAll_sound ht (good_noBad hs) ?_⟩
    rw [← but_flat]
    exact (sameForm_but h.1 ex _).mpr hw

theorem but_nil : ∀ (F : Form) (w : List Tok), (F.but []).Is w ↔ F.Is w := by
  intro F
  induction F with
  | name => intro w; simp [Form.but, Form.Is]
  | seq a b iha ihb => intro w; simp only [Form.but, Form.Is, iha, ihb]
  | alt a b iha ihb => intro w; simp only [Form.but, Form.Is, iha, ihb]
  | star a ih => intro w; simp only [Form.but, Form.Is, ih]
  | _ => intro w; rfl

/-! ### C63 -/

/-- C63: for each of the statements in the tables (86 of the tags of `parse_stmt_dispatch`), a statement with
properly nested parentheses and brackets is recognised exactly when it has the form of the standard. -/
theorem C63_recognised (x : Exts) (hx : GoodExts x) (hf : x.Forward) (tag : Int) (G : Form)
    (h : (tag, G) ∈ Std.simpleForms ++ Std.arrayForms) (s : Strm) (hs : GoodStmt s) :
    Recognised x tag s ↔ G.Is (restOf s) := by
  have hb : rowForm tag G = true ∧ rowTakes [] tag = true := by
    rcases List.mem_append.mp h with h | h
    · exact ⟨List.all_eq_true.mp simple_form _ h, List.all_eq_true.mp simple_takes _ h⟩
    · exact ⟨List.all_eq_true.mp array_form _ h, List.all_eq_true.mp array_takes _ h⟩
  exact ⟨row_sound hx hf hb.1 hs, fun hw => row_complete hx hf hb.1 hb.2 hs ((but_nil G _).mpr hw)⟩

/-- C63 for function, subroutine and type guard statements: a recognised statement has the form of the
standard; a statement of that form is recognised if no name in it is that of an intrinsic type.
Missing: intrinsic type names used as other names, as in `function real(x)`. -/
theorem C63_typed_partial (x : Exts) (hx : GoodExts x) (hf : x.Forward) (tag : Int) (G : Form)
    (h : (tag, G) ∈ Std.typedForms) (s : Strm) (hs : GoodStmt s) :
    (Recognised x tag s → G.Is (restOf s)) ∧
      ((G.but Std.intrinsicTypeNames).Is (restOf s) → Recognised x tag s) := by
  have h1 := List.all_eq_true.mp typed_form _ h
  have h2 := List.all_eq_true.mp typed_takes _ h
  exact ⟨row_sound hx hf h1 hs, row_complete hx hf h1 h2 hs⟩

/-- C63 for type declarations: a recognised statement has the form of the standard or the old one with a comma
behind the length; a statement of the form of the standard is recognised if no name in it is that of an
intrinsic type.  Missing: names like `real`, and that every statement of the old form is recognised. -/
theorem C63_declaration_partial (x : Exts) (hx : GoodExts x) (hf : x.Forward) (s : Strm) (hs : GoodStmt s) :
    (Recognised x Tag.SG_TYPE_DECLARATION_STMT s →
      Std.typeDeclarationStmt.Is (restOf s) ∨ Std.oldCharacterStmt.Is (restOf s)) ∧
      ((Std.typeDeclarationStmt.but Std.intrinsicTypeNames).Is (restOf s) →
        Recognised x Tag.SG_TYPE_DECLARATION_STMT s) := by
  constructor
  · intro hr
    have := row_sound hx hf declaration_form hs hr
    rcases this with h | h | h
    · exact .inl h
    · exact .inr h
    · exact h.elim
  · intro hw
    have h := declaration_takes
    rw [declarationTakes] at h
    cases hF : formFor Tag.SG_TYPE_DECLARATION_STMT with
    | none => rw [hF] at h; cases h
    | some F =>
      rw [hF] at h
      simp only [Bool.and_eq_true] at h
      have h1 : (firstF F).run (restOf s) = some [] := by
        refine run_complete h.2 (good_noBad hs) ?_
        rw [← but_flat]
        exact (sameForm_but h.1 _ _).mpr hw
      refine (recognised_run hx hf hF hs).mpr ⟨[], ?_⟩
      cases F with
      | alt a b =>
        have h1 : a.run (restOf s) = some [] := h1
        rw [PForm.run, h1]
      | _ => exact h1

/-- C63 for implicit statements, the one direction: a recognised statement has the form of the standard.
Missing: that every statement of the form is recognised. -/
theorem C63_implicit_partial (x : Exts) (hx : GoodExts x) (hf : x.Forward) (s : Strm) (hs : GoodStmt s)
    (h : Recognised x Tag.SG_IMPLICIT_STMT s) : Std.implicitStmt.Is (restOf s) :=
  row_sound hx hf implicit_form hs h

/-! ### Where the parsers differ from the standard -/

theorem not_recognised {tag : Int} {r : R} {ts : List Int}
    (hd : (dispatchTable.find? (fun q => q.1 == tag)).map Prod.snd = some r)
    (h : holdsFor (evalRule R.body noExts 40 r (lineOf ts)) (fun t _ => t.isNone) = true) :
    ¬ Recognised noExts tag (lineOf ts) := by
  rintro ⟨n, t, hr⟩
  rw [dispatch_iff] at hr
  cases hq : dispatchTable.find? (fun q => q.1 == tag) with
  | none => rw [hq] at hd; cases hd
  | some q =>
    rw [hq] at hr hd
    rw [Option.map_some, Option.some_inj] at hd
    subst hd
    obtain ⟨t', s', h1, h2⟩ := returns_of_holds (q := fun t _ => t.isNone) 40 h
    have := hr.unique h1
    injection this with this
    injection this with e1 e2
    rw [← e1] at h2; cases h2

/-- `rank default name`, R1150: the construct name is not allowed for (parse_stmt.cc, `select_rank_case_stmt`). -/
theorem C63_violation_rank_name (x : Exts) (hx : GoodExts x) (hf : x.Forward) (s : Strm) (hs : GoodStmt s)
    (h : (Form.seq Std.selectRankCaseStmt .name).Is (restOf s)) :
    ¬ Recognised x Tag.SG_SELECT_RANK_CASE_STMT s := by
  rw [C63_recognised x hx hf _ Std.selectRankCaseStmt (by decide +kernel) s hs]
  obtain ⟨u, v, e, hu, a, rfl, ha⟩ := h
  intro hw
  rw [e] at hw
  have hl : ∀ w, Std.selectRankCaseStmt.Is w → (∃ b c, w = [b, c] ∧ c.token = Tag.KW_DEFAULT) ∨
      ∃ w' c, w = w' ++ [c] ∧ c.token = Tag.TK_PARENR := by
    rintro w ⟨w1, w2, rfl, ⟨b, rfl, -⟩, w3, w4, rfl, hs, rfl⟩
    rcases hs with ⟨c, rfl, hc⟩ | hs | hs | hs
    · exact .inl ⟨b, c, rfl, hc⟩
    · obtain ⟨p, _, rfl, -, q, _, rfl, -, _, _, rfl, ⟨c, rfl, hc⟩, rfl⟩ := hs
      exact .inr ⟨b :: (p ++ q), c, by simp, hc⟩
    · obtain ⟨p, _, rfl, -, q, _, rfl, -, _, _, rfl, ⟨c, rfl, hc⟩, rfl⟩ := hs
      exact .inr ⟨b :: (p ++ q), c, by simp, hc⟩
    · exact hs.elim
  rcases hl _ hw with ⟨b, c, e1, _⟩ | ⟨w', c, e1, hc⟩
  · have e2 := congrArg List.length e1
    rcases hl _ hu with ⟨b', c', rfl, _⟩ | ⟨w', c', rfl, hc'⟩
    · simp at e2
    · cases w' with
      | nil =>
        obtain ⟨w1, w2, e3, ⟨b, rfl, -⟩, w3, w4, rfl, hs, rfl⟩ := hu
        injection e3 with _ e3
        have e3 : w3 ++ [] = [] := e3.symm
        rw [List.append_nil] at e3; subst e3
        rcases hs with ⟨c, hc, _⟩ | hs | hs | hs
        · cases hc
        · obtain ⟨_, _, hc, ⟨c, rfl, _⟩, _⟩ := hs; cases hc
        · obtain ⟨_, _, hc, ⟨c, rfl, _⟩, _⟩ := hs; cases hc
        · exact hs.elim
      | cons _ _ => simp at e2
  · have e2 := (List.append_inj' e1 rfl).2
    injection e2 with e2
    subst e2
    rw [hc] at ha
    exact absurd ha (by decide)

/-- `interface operator(.eqv.)`, R1023: `.eqv.` is not allowed for in generic specifications
(parse_stmt.cc:1604-1609 has the tokens of `==` and `/=` instead). -/
theorem C63_violation_operator_eqv :
    ¬ Recognised noExts Tag.SG_INTERFACE_STMT
      (lineOf [Tag.KW_INTERFACE, Tag.KW_OPERATOR, Tag.TK_PARENL, Tag.TK_EQV_OP, Tag.TK_PARENR]) :=
  not_recognised (r := .interface_stmt) (by decide +kernel) (by decide +kernel)

/-- `procedure(real(8)) :: f`, R1512, R1513: the interface is tried as a name first, which `real` may be. -/
theorem C63_violation_procedure_interface :
    ¬ Recognised noExts Tag.SG_PROCEDURE_DECLARATION_STMT
      (lineOf [Tag.KW_PROCEDURE, Tag.TK_PARENL, Tag.KW_REAL, Tag.TK_PARENL, Tag.SG_INT_LITERAL_CONSTANT,
        Tag.TK_PARENR, Tag.TK_PARENR, Tag.TK_DBL_COLON, Tag.TK_NAME]) :=
  not_recognised (r := .procedure_declaration_stmt) (by decide +kernel) (by decide +kernel)

/-- `real, allocatable :: a[:]` as a component, R739: the coarray specification is wanted in parentheses
(parse_stmt.cc:856). -/
theorem C63_violation_component_coarray :
    ¬ Recognised noExts Tag.SG_COMPONENT_DEF_STMT
      (lineOf [Tag.KW_REAL, Tag.TK_COMMA, Tag.KW_ALLOCATABLE, Tag.TK_DBL_COLON, Tag.TK_NAME, Tag.TK_BRACKETL,
        Tag.TK_COLON, Tag.TK_BRACKETR]) :=
  not_recognised (r := .component_def_stmt) (by decide +kernel) (by decide +kernel)

/-! ### Examples -/

/-- `if (a .lt. b) then` is properly nested and of the form; C63 says that it is recognised. -/
example : ∃ G s, (Tag.SG_IF_THEN_STMT, G) ∈ Std.simpleForms ++ Std.arrayForms ∧ GoodStmt s ∧ G.Is (restOf s) ∧
    s.hi = 7 := by
  refine ⟨Std.ifThenStmt, lineOf [Tag.KW_IF, Tag.TK_PARENL, Tag.TK_NAME, Tag.TK_REL_LT, Tag.TK_NAME, Tag.TK_PARENR,
    Tag.KW_THEN], by decide +kernel, ?_, ?_, rfl⟩
  · refine good_of (goodTags_of (by decide +kernel)) ?_
    refine .plain ⟨by decide, by decide, by decide, by decide⟩ ?_
    exact .paren (a := [Tag.TK_NAME, Tag.TK_REL_LT, Tag.TK_NAME]) (b := [Tag.KW_THEN])
      (.plain ⟨by decide, by decide, by decide, by decide⟩ <| .plain ⟨by decide, by decide, by decide, by decide⟩ <|
        .plain ⟨by decide, by decide, by decide, by decide⟩ .nil)
      (.plain ⟨by decide, by decide, by decide, by decide⟩ .nil)
  · refine ⟨[], _, rfl, .inr rfl, [tokOf Tag.KW_IF], _, rfl, ⟨_, rfl, rfl⟩,
      [Tag.TK_PARENL, Tag.TK_NAME, Tag.TK_REL_LT, Tag.TK_NAME, Tag.TK_PARENR].map tokOf, [tokOf Tag.KW_THEN], rfl, ?_,
      [tokOf Tag.KW_THEN], [], rfl, ⟨_, rfl, rfl⟩, rfl⟩
    refine ⟨[tokOf Tag.TK_PARENL], _, rfl, ⟨_, rfl, rfl⟩, [Tag.TK_NAME, Tag.TK_REL_LT, Tag.TK_NAME].map tokOf,
      [tokOf Tag.TK_PARENR], rfl, ⟨?_, _, _, rfl, by decide, by decide⟩, [tokOf Tag.TK_PARENR], [], rfl,
      ⟨_, rfl, rfl⟩, rfl⟩
    exact .plain ⟨by decide, by decide, by decide, by decide⟩ (by decide) (by decide) (by decide) <|
      .plain ⟨by decide, by decide, by decide, by decide⟩ (by decide) (by decide) (by decide) <|
      .plain ⟨by decide, by decide, by decide, by decide⟩ (by decide) (by decide) (by decide) .nil

/-- `subroutine s` is of the form with no name of an intrinsic type. -/
example : GoodStmt (lineOf [Tag.KW_SUBROUTINE, Tag.TK_NAME]) ∧
    (Std.subroutineStmt.but Std.intrinsicTypeNames).Is (restOf (lineOf [Tag.KW_SUBROUTINE, Tag.TK_NAME])) := by
  constructor
  · exact good_of (goodTags_of (by decide +kernel))
      (.plain ⟨by decide, by decide, by decide, by decide⟩ (.plain ⟨by decide, by decide, by decide, by decide⟩ .nil))
  · exact ⟨[], _, rfl, .inr rfl, [tokOf Tag.KW_SUBROUTINE], _, rfl, ⟨_, rfl, rfl⟩, [tokOf Tag.TK_NAME], _, rfl,
      ⟨_, rfl, by decide, by decide⟩, [], _, rfl, .inr rfl, [], _, rfl, .inr rfl, rfl⟩

/-- `real x`, likewise. -/
example : GoodStmt (lineOf [Tag.KW_REAL, Tag.TK_NAME]) ∧
    (Std.typeDeclarationStmt.but Std.intrinsicTypeNames).Is (restOf (lineOf [Tag.KW_REAL, Tag.TK_NAME])) := by
  constructor
  · exact good_of (goodTags_of (by decide +kernel))
      (.plain ⟨by decide, by decide, by decide, by decide⟩ (.plain ⟨by decide, by decide, by decide, by decide⟩ .nil))
  · refine ⟨[tokOf Tag.KW_REAL], [tokOf Tag.TK_NAME], rfl, .inl (.inr (.inl ⟨[tokOf Tag.KW_REAL], [], rfl, ⟨_, rfl, rfl⟩, [], [], rfl, .inr rfl, rfl⟩)),
      [], _, rfl, .inr rfl, [tokOf Tag.TK_NAME], [], rfl, ⟨[tokOf Tag.TK_NAME], [], rfl, ?_, [], rfl, by simp⟩, rfl⟩
    exact ⟨[tokOf Tag.TK_NAME], [], rfl, ⟨_, rfl, by decide, by decide⟩, [], [], rfl, .inr rfl, [], [], rfl, .inr rfl,
      [], [], rfl, .inr rfl, [], [], rfl, .inr rfl, rfl⟩

end SP
end FLPR
