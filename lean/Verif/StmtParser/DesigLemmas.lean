import Verif.StmtParser.DesigRun
import Verif.StmtParser.DesigStd
/-!
# Statements with designators: what the parsers do
-/

namespace FLPR
namespace SP
open Spec

theorem recognised_does {x : Exts} (hx : GoodExts x) (hf : x.Forward) {tag : Int} {r : R}
    (hr : dispatchTable.find? (fun q => q.1 == tag) = some (tag, r)) (hi : r ≠ .image_selector) {s : Strm}
    (hs : GoodStmt s) (hn : NoImages s.all) {res : Option (List Tok)} (hd : Does x (.rule r) s res) :
    (Recognised x tag s ↔ ∃ z, res = some z) ∧ ∀ out, DispatchReturns x tag s out → ∃ w, out = .ok w := by
  unfold Recognised
  simp only [dispatch_iff, hr]
  have plain : ∀ out, Returns x r s out → ∃ n, evalRule plainBody x n r s = up out := by
    intro out h
    obtain ⟨n, h⟩ := h.eval
    refine ⟨n, ?_⟩
    rcases evalRule_plain (n := n) hx hi hs hn with h1 | h1
    · rw [h] at h1
      cases out with
      | ok w => cases h1
      | error e => cases h1
    · rw [← h1, h]
  have key : ∀ tree t, Returns x r s (.ok (tree, t)) →
      Agrees res s tree.isSome (match tree with | none => t.goto s.pos | some _ => t) := by
    intro tree t h
    obtain ⟨n, hn⟩ := plain _ h
    refine (hd (n + 1)).2 ⟨tree, tree.isSome, _⟩ ?_
    rw [eval, step]
    rw [evalRule] at hn
    rw [hn]
    cases tree <;> rfl
  have defd : ∀ out, Returns x r s out → ∃ w, out = .ok w := by
    intro out h
    cases out with
    | ok w => exact ⟨w, rfl⟩
    | error e =>
      exfalso
      obtain ⟨he, _⟩ := returns_safe hx hs h
      subst he
      obtain ⟨n, hn⟩ := plain _ h
      refine (hd (n + 1)).1 ?_
      rw [eval, step]
      rw [evalRule] at hn
      rw [hn]
      rfl
  refine ⟨⟨?_, ?_⟩, defd⟩
  · rintro ⟨n, t, h⟩
    obtain ⟨_, _, _, _, hr⟩ := agrees_some (key _ _ h) rfl
    exact ⟨_, hr⟩
  · rintro ⟨z, hz⟩
    obtain ⟨out, hout, _⟩ := C52_terminates x hf r s
    obtain ⟨⟨tree, t⟩, rfl⟩ := defd out hout
    cases tree with
    | some n => exact ⟨n, t, hout⟩
    | none =>
      obtain ⟨h2, _⟩ := agrees_none (key _ _ hout) rfl
      rw [hz] at h2; cases h2

/-! ### Nesting -/

theorem wn_plain_inv {t : Int} {ts : List Int} (h : WellNested (t :: ts)) (hp : Plain t) : WellNested ts := by
  cases h with
  | plain _ h => exact h
  | paren _ _ => exact absurd rfl hp.1
  | bracket _ _ => exact absurd rfl hp.2.2.1

theorem wn_paren_inv {a b : List Int} (h : WellNested (Tag.TK_PARENL :: (a ++ Tag.TK_PARENR :: b))) (ha : WellNested a) :
    WellNested b := by
  generalize he : Tag.TK_PARENL :: (a ++ Tag.TK_PARENR :: b) = l at h
  cases h with
  | nil => cases he
  | plain hp _ => injection he with he _; exact absurd he.symm hp.1
  | @paren c d hc hd =>
    injection he with _ he
    have h1 := @scanP_close a b ha
    rw [he, scanP_close hc] at h1
    obtain ⟨_, e2⟩ := List.append_inj he (by omega)
    injection e2 with _ e2
    rw [e2]; exact hd
  | bracket _ _ => injection he with he _; exact absurd he (by decide)

theorem unbroken_wn {l : List Int} (h : Unbroken l) : WellNested l := by
  induction h with
  | nil => exact .nil
  | plain hp _ _ _ _ ih => exact .plain hp ih
  | paren ha _ ih => exact .paren ha ih
  | bracket ha _ ih => exact .bracket ha ih

theorem unbroken_append {a b : List Int} (ha : Unbroken a) (hb : Unbroken b) : Unbroken (a ++ b) := by
  induction ha with
  | nil => exact hb
  | plain hp h1 h2 h3 _ ih => exact .plain hp h1 h2 h3 ih
  | paren hw _ ih =>
    rw [List.cons_append, List.append_assoc, List.cons_append]
    exact .paren hw ih
  | bracket hw _ ih =>
    rw [List.cons_append, List.append_assoc, List.cons_append]
    exact .bracket hw ih

/-- All words of the form are properly nested: it has no parentheses of its own. -/
def Form.noParens : Form → Bool
  | .word t => t != Tag.TK_PARENL && t != Tag.TK_PARENR && t != Tag.TK_BRACKETL && t != Tag.TK_BRACKETR
  | .group => false
  | .seq a b => noParens a && noParens b
  | .alt a b => noParens a && noParens b
  | .star a => noParens a
  | _ => true

theorem name_unbroken {t : Int} (h : NameTag t) : Unbroken [t] := inert_unbroken (nameTag_inert h)

theorem noParens_wn : ∀ (F : Form) (w : List Tok), Form.noParens F = true → F.Is w → WellNested (w.map (·.token)) := by
  intro F
  induction F with
  | empty => intro w _ h; rw [show w = [] from h]; exact .nil
  | never => intro w _ h; exact h.elim
  | word t =>
    rintro w h ⟨a, rfl, rfl⟩
    simp only [Form.noParens, Bool.and_eq_true, bne_iff_ne, ne_eq] at h
    exact .plain ⟨h.1.1.1, h.1.1.2, h.1.2, h.2⟩ .nil
  | name => rintro w _ ⟨a, rfl, h⟩; exact unbroken_wn (name_unbroken h)
  | nameBut ex => rintro w _ ⟨a, rfl, h, _⟩; exact unbroken_wn (name_unbroken h)
  | letter => rintro w _ ⟨a, rfl, h, _⟩; exact unbroken_wn (name_unbroken h)
  | spelled s => rintro w _ ⟨a, rfl, h, _⟩; exact unbroken_wn (name_unbroken h)
  | expr => intro w _ h; exact unbroken_wn h.1
  | group => intro w h; cases h
  | seq a b iha ihb =>
    rintro w h ⟨u, v, rfl, h1, h2⟩
    rw [Form.noParens, Bool.and_eq_true] at h
    rw [List.map_append]
    exact wn_append (iha u h.1 h1) (ihb v h.2 h2)
  | alt a b iha ihb =>
    intro w h hw
    rw [Form.noParens, Bool.and_eq_true] at h
    rcases hw with hw | hw
    · exact iha w h.1 hw
    · exact ihb w h.2 hw
  | star a ih =>
    rintro w h ⟨ps, rfl, hps⟩
    induction ps with
    | nil => exact .nil
    | cons q ps ihp =>
      rw [List.flatten_cons, List.map_append]
      exact wn_append (ih q h (hps q (by simp)).2) (ihp (fun q hq => hps q (by simp [hq])))

/-- A form without parentheses, in parentheses. -/
theorem paren_is {F : Form} (hF : Form.noParens F = true) {w : List Tok} (h : (Form.paren F).Is w) :
    ∃ m, WellNested m ∧ w.map (·.token) = Tag.TK_PARENL :: (m ++ [Tag.TK_PARENR]) := by
  obtain ⟨_, _, rfl, ⟨a, rfl, ha⟩, m, _, rfl, hm, _, _, rfl, ⟨b, rfl, hb⟩, rfl⟩ := h
  exact ⟨m.map (·.token), noParens_wn F m hF hm, by simp [ha, hb]⟩

theorem paren_unbroken {F : Form} (hF : Form.noParens F = true) {w : List Tok} (h : (Form.paren F).Is w) :
    Unbroken (w.map (·.token)) := by
  obtain ⟨m, hm, e⟩ := paren_is hF h
  rw [e]
  exact .paren hm .nil

theorem group_unbroken {l m : List Int} (hm : WellNested m) (e : l = Tag.TK_PARENL :: (m ++ [Tag.TK_PARENR])) : Unbroken l := by
  rw [e]; exact .paren hm .nil

theorem part_unbroken {w : List Tok} (h : Std.partRef.Is w) : Unbroken (w.map (·.token)) := by
  obtain ⟨_, _, rfl, ⟨a, rfl, ha⟩, u, _, rfl, hu, rfl⟩ := h
  rw [List.append_nil, List.map_append]
  refine unbroken_append (name_unbroken ha) ?_
  rcases hu with hu | hu
  · exact paren_unbroken (by decide) hu
  · rw [show u = [] from hu]; exact .nil

theorem percent_unbroken {w : List Tok} (h : Std.percent.Is w) : Unbroken (w.map (·.token)) := by
  obtain ⟨a, rfl, ha⟩ := h
  exact inert_unbroken (by show inert a.token = true; rw [ha]; decide)

theorem star_unbroken {F : Form} (hF : ∀ w, F.Is w → Unbroken (w.map (·.token))) {w : List Tok} (h : (Form.star F).Is w) :
    Unbroken (w.map (·.token)) := by
  obtain ⟨ps, rfl, hps⟩ := h
  induction ps with
  | nil => exact .nil
  | cons q ps ih =>
    rw [List.flatten_cons, List.map_append]
    exact unbroken_append (hF q (hps q (by simp)).2) (ih (fun q hq => hps q (by simp [hq])))

theorem seq_unbroken {F G : Form} (hF : ∀ w, F.Is w → Unbroken (w.map (·.token))) (hG : ∀ w, G.Is w → Unbroken (w.map (·.token)))
    {w : List Tok} (h : (Form.seq F G).Is w) : Unbroken (w.map (·.token)) := by
  obtain ⟨u, v, rfl, h1, h2⟩ := h
  rw [List.map_append]
  exact unbroken_append (hF u h1) (hG v h2)

theorem empty_unbroken {w : List Tok} (h : Form.empty.Is w) : Unbroken (w.map (·.token)) := by
  rw [show w = [] from h]; exact .nil

theorem opt_unbroken {F : Form} (hF : ∀ w, F.Is w → Unbroken (w.map (·.token))) {w : List Tok} (h : (Form.opt F).Is w) :
    Unbroken (w.map (·.token)) := by
  rcases h with h | h
  · exact hF w h
  · exact empty_unbroken h

theorem data_unbroken {w : List Tok} (h : Std.dataRef.Is w) : Unbroken (w.map (·.token)) :=
  seq_unbroken (fun _ => part_unbroken) (fun _ => seq_unbroken
    (fun _ => star_unbroken (fun _ => seq_unbroken (fun _ => percent_unbroken) (fun _ => seq_unbroken (fun _ => part_unbroken)
      (fun _ => empty_unbroken)))) (fun _ => empty_unbroken)) h

theorem designator_unbroken {w : List Tok} (h : Std.designator.Is w) : Unbroken (w.map (·.token)) :=
  seq_unbroken (fun _ => data_unbroken) (fun _ => seq_unbroken (fun _ => opt_unbroken (F := .paren Std.substringRange) (fun _ => paren_unbroken (by decide)))
    (fun _ => empty_unbroken)) h

theorem procDes_unbroken {w : List Tok} (h : Std.procedureDesignator.Is w) : Unbroken (w.map (·.token)) :=
  seq_unbroken (fun _ => star_unbroken (fun _ => seq_unbroken (fun _ => part_unbroken) (fun _ => seq_unbroken
      (fun _ => percent_unbroken) (fun _ => empty_unbroken))))
    (fun _ => seq_unbroken (fun _ h => by obtain ⟨a, rfl, ha⟩ := h; exact name_unbroken ha) (fun _ => empty_unbroken)) h

/-! ### The parts of a designator -/

theorem designatorF_sound {w : List Tok} (hn : Nested (w.map (·.token))) (h : designatorF.run w = some []) :
    Std.procedureDesignator.Is w := by
  obtain ⟨v, hv, hw⟩ := run_sound designatorF w [] hn h
  rw [List.append_nil] at hv
  subst hv
  have h1 := (sameForm_is (a := designatorF.erase)
    (b := .seqs [.opt (.star (.seqs [Std.partRef, Std.percent])), .name]) (by decide +kernel) w).mp hw
  obtain ⟨u, v, rfl, h2, h3⟩ := h1
  refine ⟨u, v, rfl, ?_, h3⟩
  rcases h2 with h2 | h2
  · exact h2
  · rw [show u = [] from h2]
    exact ⟨[], rfl, by simp⟩

theorem designatorF_complete {w : List Tok} (hb : NoBad w) (h : Std.procedureDesignator.Is w) :
    designatorF.run w = some [] := by
  refine takesAll_sound (ex := []) (by decide +kernel) hb ((eraseBut_nil _ _).mpr ?_)
  refine (sameForm_is (a := designatorF.erase)
    (b := .seqs [.opt (.star (.seqs [Std.partRef, Std.percent])), .name]) (by decide +kernel) w).mpr ?_
  obtain ⟨u, v, rfl, h2, h3⟩ := h
  exact ⟨u, v, rfl, .inl h2, h3⟩

def sectionsF : PForm := (toFormG plainBody 20 (.parens Tag.HOIST [.list Tag.SG_SECTION_SUBSCRIPT_LIST (.rule .section_subscript)])).getD .never
def substringF : PForm := (toFormG plainBody 20 (.parens Tag.HOIST [.rule .substring_range])).getD .never
def argumentsF : PForm :=
  (toFormG plainBody 20 (.parens Tag.HOIST [.opt (.list Tag.SG_ACTUAL_ARG_SPEC_LIST (.rule .actual_arg_spec))])).getD .never
def partF : PForm := .seq .name (.seq (.alt sectionsF .eps) (.seq (.alt .never .eps) .eps))
def stepF : PForm := .seq (.tok Tag.TK_PERCENT) (.seq partF .eps)
def dataF : PForm := .seq partF (.seq (.star stepF) .eps)
def variableF : PForm := .seq dataF (.seq (.alt substringF .eps) .eps)

theorem variableF_eq : toFormG plainBody 40 (.rule .designator) = some variableF := by decide +kernel
theorem argumentsF_eq : toFormG plainBody 20 (.parens Tag.HOIST [.opt (.list Tag.SG_ACTUAL_ARG_SPEC_LIST (.rule .actual_arg_spec))]) =
    some argumentsF := by decide +kernel

theorem any_shas {u : List Tok} : SHas [] [.any] [] u :=
  ⟨.any, by simp, [], u, ⟨.nil, fun h => by cases h⟩, rfl, fun k hk => by cases hk⟩

theorem sections_take {w u : List Tok} (hb : NoBad (w ++ u)) (h : Std.sections.Is w) : sectionsF.run (w ++ u) = some u := by
  refine (chk_sound (ex := []) ⟨2, true⟩ 60).1 sectionsF [.any] (by decide +kernel) w [] u hb ((eraseBut_nil _ _).mpr ?_) any_shas
  exact (sameForm_is (a := sectionsF.erase) (b := Std.sections) (by decide +kernel) w).mpr h

theorem substring_take {w u : List Tok} (hb : NoBad (w ++ u)) (h : (Form.paren Std.substringRange).Is w) :
    substringF.run (w ++ u) = some u := by
  refine (chk_sound (ex := []) ⟨2, true⟩ 60).1 substringF [.any] (by decide +kernel) w [] u hb ((eraseBut_nil _ _).mpr ?_) any_shas
  exact (sameForm_is (a := substringF.erase) (b := .paren Std.substringRange) (by decide +kernel) w).mpr h

/-- A form that starts with a parenthesis does not match where there is none. -/
theorem paren_fails {F : PForm} {G : PForm} (hF : F = .seq (.tok Tag.TK_PARENL) G) {u : List Tok}
    (hu : PForm.headTag u ≠ Tag.TK_PARENL) : F.run u = none := by
  subst hF
  cases u with
  | nil => rfl
  | cons a u =>
    have hu : a.token ≠ Tag.TK_PARENL := hu
    rw [PForm.run, PForm.run, PForm.take1, if_neg (by simpa using hu)]
    rfl

theorem sectionsF_paren : ∃ G, sectionsF = .seq (.tok Tag.TK_PARENL) G := ⟨_, rfl⟩
theorem substringF_paren : ∃ G, substringF = .seq (.tok Tag.TK_PARENL) G := ⟨_, rfl⟩

/-- A part of a data reference; `b`: it has subscripts. -/
def Part (w : List Tok) (b : Bool) : Prop :=
  ∃ a p, w = a :: p ∧ NameTag a.token ∧ ((b = false ∧ p = []) ∨ (b = true ∧ Std.sections.Is p))

theorem part_of {w : List Tok} (h : Std.partRef.Is w) : ∃ b, Part w b := by
  obtain ⟨_, _, rfl, ⟨a, rfl, ha⟩, u, _, rfl, hu, rfl⟩ := h
  rw [List.append_nil]
  rcases hu with hu | hu
  · exact ⟨true, a, u, rfl, ha, .inr ⟨rfl, hu⟩⟩
  · exact ⟨false, a, u, rfl, ha, .inl ⟨rfl, hu⟩⟩

theorem part_take {w u : List Tok} {b : Bool} (h : Part w b) (hb : NoBad (w ++ u))
    (hu : b = false → PForm.headTag u ≠ Tag.TK_PARENL) : partF.run (w ++ u) = some u := by
  obtain ⟨a, p, rfl, ha, hp⟩ := h
  rw [partF, PForm.run, PForm.run, List.cons_append, PForm.take1, if_pos (by simpa using ha), Option.bind_some, PForm.run, PForm.run]
  have hbt : NoBad (p ++ u) := fun c hc => hb c (by simp at hc ⊢; tauto)
  rcases hp with ⟨rfl, rfl⟩ | ⟨rfl, hp⟩
  · obtain ⟨G, hG⟩ := sectionsF_paren
    rw [List.nil_append, paren_fails hG (hu rfl)]
    rfl
  · rw [sections_take hbt hp]
    rfl

/-- A data reference; `b`: its last part has subscripts. -/
inductive Chain : List Tok → Bool → Prop where
  | one {w : List Tok} {b : Bool} : Part w b → Chain w b
  | cons {w v : List Tok} {b b' : Bool} {p : Tok} : Part w b → p.token = Tag.TK_PERCENT → Chain v b' → Chain (w ++ p :: v) b'

theorem chain_of {w : List Tok} (h : Std.dataRef.Is w) : ∃ b, Chain w b := by
  obtain ⟨u, _, rfl, hu, v, _, rfl, ⟨ps, rfl, hps⟩, rfl⟩ := h
  rw [List.append_nil]
  obtain ⟨b, hb⟩ := part_of hu
  clear hu
  induction ps generalizing u b with
  | nil => exact ⟨b, by simpa using .one hb⟩
  | cons q ps ih =>
    obtain ⟨_, _, _, rfl, ⟨p, rfl, hp⟩, v, _, rfl, hv, rfl⟩ := hps q (by simp)
    obtain ⟨b', hb'⟩ := part_of hv
    obtain ⟨b2, h2⟩ := ih v (fun q hq => hps q (by simp [hq])) b' hb'
    exact ⟨b2, by simpa using Chain.cons hb hp h2⟩

theorem chain_take {w u : List Tok} {b : Bool} (h : Chain w b) (hb : NoBad (w ++ u))
    (hu : b = false → PForm.headTag u ≠ Tag.TK_PARENL) (hp : PForm.headTag u ≠ Tag.TK_PERCENT) :
    ∃ r, partF.run (w ++ u) = some r ∧ r.length ≤ (w ++ u).length ∧ ∀ n, r.length ≤ n → PForm.starL stepF.run n r = u := by
  induction h with
  | one h =>
    refine ⟨u, part_take h hb hu, by simp, fun n _ => ?_⟩
    cases n with
    | zero => rfl
    | succ n =>
      rw [PForm.starL]
      have : stepF.run u = none := by
        rw [stepF, PForm.run]
        cases u with
        | nil => rfl
        | cons a u =>
          have hp : a.token ≠ Tag.TK_PERCENT := hp
          rw [PForm.run, PForm.take1, if_neg (by simpa using hp)]
          rfl
      rw [this]
  | @cons w v b b' p h1 h2 h3 ih =>
    have hb2 : NoBad (v ++ u) := fun c hc => hb c (by simp at hc ⊢; tauto)
    obtain ⟨r, e1, e3, e2⟩ := ih hb2 hu
    rw [List.append_assoc, List.cons_append] at hb ⊢
    refine ⟨p :: (v ++ u), part_take h1 hb (fun _ => by show p.token ≠ _; rw [h2]; decide), by simp, fun n hn => ?_⟩
    cases n with
    | zero => simp at hn
    | succ n =>
      have hl : r.length < (p :: (v ++ u)).length := by
        rw [List.length_cons]
        omega
      have hs : stepF.run (p :: (v ++ u)) = some r := by
        rw [stepF, PForm.run, PForm.run, PForm.take1, if_pos (by simpa using h2), Option.bind_some, PForm.run, e1]
        rfl
      rw [PForm.starL, hs]
      simp only
      rw [if_pos hl]
      exact e2 n (by simp at hn hl; omega)

theorem data_take {w u : List Tok} {b : Bool} (h : Chain w b) (hb : NoBad (w ++ u))
    (hu : b = false → PForm.headTag u ≠ Tag.TK_PARENL) (hp : PForm.headTag u ≠ Tag.TK_PERCENT) :
    dataF.run (w ++ u) = some u := by
  obtain ⟨r, h1, _, h2⟩ := chain_take h hb hu hp
  rw [dataF, PForm.run, h1, Option.bind_some, PForm.run, PForm.run, Option.bind_some, PForm.run, h2 _ (le_refl _)]

/-- Subscripts may be put behind a last part that has none. -/
theorem chain_sections {w v : List Tok} {b : Bool} (h : Chain w b) (hb : b = false) (hv : Std.sections.Is v) :
    Chain (w ++ v) true := by
  induction h with
  | one h =>
    subst hb
    obtain ⟨a, p, rfl, ha, hp⟩ := h
    rcases hp with ⟨_, rfl⟩ | ⟨h, _⟩
    · exact .one ⟨a, v, rfl, ha, .inr ⟨rfl, hv⟩⟩
    · cases h
  | cons h1 h2 _ ih =>
    rw [List.append_assoc, List.cons_append]
    exact .cons h1 h2 (ih hb)

theorem substring_sections {w : List Tok} (h : (Form.paren Std.substringRange).Is w) : Std.sections.Is w := by
  obtain ⟨a, _, rfl, ha, m, r, rfl, hm, hr⟩ := h
  refine ⟨a, _, rfl, ha, m, r, rfl, ?_, hr⟩
  obtain ⟨u, _, rfl, h1, v, _, rfl, h2, x, _, rfl, h3, rfl⟩ := hm
  refine ⟨u ++ (v ++ x), [], by simp, .inl ⟨u, v ++ x, rfl, h1, v, x, rfl, h2, x, [], by simp, h3, [], [], rfl, .inr rfl, rfl⟩, [], rfl, by simp⟩

/-- A designator is taken as a whole when neither a parenthesis nor a percent sign follows. -/
theorem variable_take {w u : List Tok} (h : Std.designator.Is w) (hb : NoBad (w ++ u))
    (hu : PForm.headTag u ≠ Tag.TK_PARENL) (hp : PForm.headTag u ≠ Tag.TK_PERCENT) : variableF.run (w ++ u) = some u := by
  obtain ⟨d, _, rfl, hd, q, _, rfl, hq, rfl⟩ := h
  rw [List.append_nil] at hb ⊢
  obtain ⟨b, hc⟩ := chain_of hd
  obtain ⟨G, hG⟩ := substringF_paren
  have short : ∀ {d b}, Chain d b → NoBad (d ++ u) → variableF.run (d ++ u) = some u := by
    intro d b hc hb
    rw [variableF, PForm.run, data_take hc hb (fun _ => hu) hp, Option.bind_some, PForm.run, PForm.run, paren_fails hG hu]
    rfl
  rcases hq with hq | hq
  · cases b with
    | false => exact short (chain_sections hc rfl (substring_sections hq)) hb
    | true =>
      rw [List.append_assoc] at hb ⊢
      have hh : PForm.headTag (q ++ u) ≠ Tag.TK_PERCENT := by
        obtain ⟨_, _, rfl, ⟨a, rfl, ha⟩, _⟩ := hq
        show a.token ≠ _
        rw [ha]; decide
      rw [variableF, PForm.run, data_take hc hb (fun h => by cases h) hh, Option.bind_some, PForm.run, PForm.run,
        substring_take hb.right hq]
      rfl
  · rw [show q = [] from hq, List.append_nil] at hb ⊢
    exact short hc hb

/-! ### Sequences -/

/-- Members with forms, and then more. -/
theorem seqSpec_forms {x : Exts} (hx : GoodExts x) {k : Nat} {r : Option (List Tok)} {qs : List P} : ∀ (ps : List P) (Fs : List PForm) (s : Strm),
    formsOf (toFormG plainBody k) ps = some Fs → P.goodAll ps = true → P.callsAny (fun r => R.calling.contains r) ps = false →
    GoodStmt s → ((PForm.seqs Fs).run (restOf s) = none → r = none) →
    (∀ q, s.pos ≤ q → q ≤ s.hi → (PForm.seqs Fs).run (restOf s) = some (restOf (s.goto q)) → SeqSpec x qs (s.goto q) r) →
    SeqSpec x (ps ++ qs) s r := by
  intro ps
  induction ps with
  | nil =>
    intro Fs s hF _ _ hs _ hq
    injection hF with hF; subst hF
    have := hq s.pos (le_refl _) hs.pos_hi (by rw [Strm.goto_self]; rfl)
    rwa [Strm.goto_self] at this
  | cons p ps ih =>
    intro Fs s hF hg hc hs hnone hq
    rw [formsOf] at hF
    obtain ⟨F, e1, e2⟩ := Option.bind_eq_some_iff.mp hF
    obtain ⟨Gs, e3, rfl⟩ := Option.map_eq_some_iff.mp e2
    rw [P.goodAll, Bool.and_eq_true] at hg
    rw [P.callsAny, Bool.or_eq_false_iff] at hc
    have hlo := hs.lo_pos
    refine ⟨F.run (restOf s), does_form hx e1 hg.1 hc.1 hs, fun h => hnone ?_, fun q h1 h2 h3 => ?_⟩
    · rw [PForm.seqs, PForm.run, h]; rfl
    · have hgs := GoodStmt_goto hs (q := q) (by omega) h2
      refine ih Gs (s.goto q) e3 hg.2 hc.2 hgs (fun h => hnone ?_) (fun q2 h4 h5 h6 => ?_)
      · rw [PForm.seqs, PForm.run, h3, Option.bind_some]; exact h
      · rw [Strm.goto_goto] at h6 ⊢
        have h4 : q ≤ q2 := h4
        refine hq q2 (by omega) h5 ?_
        rw [PForm.seqs, PForm.run, h3, Option.bind_some]; exact h6

theorem seqSpec_all {x : Exts} (hx : GoodExts x) {k : Nat} {ps : List P} {Fs : List PForm} {s : Strm}
    (hF : formsOf (toFormG plainBody k) ps = some Fs) (hg : P.goodAll ps = true)
    (hc : P.callsAny (fun r => R.calling.contains r) ps = false) (hs : GoodStmt s) :
    SeqSpec x ps s ((PForm.seqs Fs).run (restOf s)) := by
  have := seqSpec_forms (qs := []) hx ps Fs s hF hg hc hs (r := (PForm.seqs Fs).run (restOf s)) id (fun q _ _ h => h)
  rwa [List.append_nil] at this

/-! ### Function references and variables -/

/-- What `function_reference` leaves of the two parts. -/
def callL (u v : List Tok) : Option (List Tok) := if designatorF.run u = some [] then argumentsF.run v else none

theorem does_reference {x : Exts} (hx : GoodExts x) {s : Strm} (h : GoodStmt s) {u v : List Tok}
    (hsp : EndsAt s u v) : Does x (.rule .function_reference) s (callL u v) := by
  refine does_rule (q := .seq Tag.SG_FUNCTION_REFERENCE [.rule .procedure_designator,
    .parens Tag.HOIST [.opt (.list Tag.SG_ACTUAL_ARG_SPEC_LIST (.rule .actual_arg_spec))]]) rfl rfl ?_
  refine does_seq hx h (by decide +kernel) ?_
  refine ⟨_, does_designator hx h hsp, fun hn => ?_, fun q h1 h2 h3 => ?_⟩
  · rw [callL]
    split
    · next hc => rw [if_pos hc] at hn; cases hn
    · rfl
  · rw [callL]
    have hlo := h.lo_pos
    split at h3
    · next hc =>
      injection h3 with h3
      rw [if_pos hc, h3]
      have := seqSpec_all (k := 20) (Fs := [argumentsF]) (s := s.goto q) hx
        (ps := [.parens Tag.HOIST [.opt (.list Tag.SG_ACTUAL_ARG_SPEC_LIST (.rule .actual_arg_spec))]])
        (by rw [formsOf, argumentsF_eq]; rfl) (by decide +kernel) (by decide +kernel) (GoodStmt_goto h (by omega) h2)
      rw [PForm.seqs, PForm.run] at this
      rw [show (argumentsF.run (restOf (s.goto q))).bind (PForm.seqs []).run = argumentsF.run (restOf (s.goto q)) by
        cases argumentsF.run (restOf (s.goto q)) <;> rfl] at this
      exact this
    · cases h3

/-- What `variable` does. -/
def variableL (u v : List Tok) : Option (List Tok) := if callL u v = none then variableF.run (u ++ v) else callL u v

theorem does_variable {x : Exts} (hx : GoodExts x) {s : Strm} (h : GoodStmt s) {u v : List Tok}
    (hsp : EndsAt s u v) : Does x (.rule .«variable») s (variableL u v) := by
  refine does_rule (q := .alts Tag.SG_VARIABLE [.rule .function_reference, .rule .designator]) rfl rfl ?_
  refine does_alts ?_
  refine ⟨_, does_reference hx h hsp, fun hn => ?_, fun hn => by rw [variableL, if_neg hn]⟩
  have hd := does_form hx variableF_eq (by decide +kernel) (by decide +kernel) h (s := s) (x := x)
  rw [hsp.split] at hd
  refine ⟨_, hd, fun h0 => ?_, fun h0 => ?_⟩
  · show variableL u v = none
    rw [variableL, if_pos hn, h0]
  · rw [variableL, if_pos hn]

theorem eq_breaks {d e : List Int} {l : List Int} (hl : l = d ++ Tag.TK_EQUAL :: e) (hb : ∀ t ∈ l, t ≠ Tag.BAD) (hd : Unbroken d)
    (h : Unbroken l) : False := by
  have h1 := scanN_unbroken h [] hb
  have h2 := scanN_unbroken hd (Tag.TK_EQUAL :: e) (fun t ht => hb t (by rw [hl]; simp [ht]))
  have h3 : PForm.scanN (Tag.TK_EQUAL :: e) 1 = none := by
    rw [PForm.scanN, show breakStep Tag.TK_EQUAL 1 = .fail from rfl]
  rw [List.append_nil, hl, h2, h3] at h1
  cases h1

theorem call_unbroken {u v : List Tok} (hw : WellNested ((u ++ v).map (·.token))) (hsp : SplitAt (u ++ v) u v)
    (h : designatorF.run u = some []) : Std.procedureDesignator.Is u ∧ Unbroken ((u ++ v).map (·.token)) := by
  have hn : Nested (u.map (·.token)) := by
    rcases hsp.2 with ⟨rfl, _⟩ | ⟨m, hu, _⟩
    · rw [List.append_nil] at hw
      exact ⟨_, 0, hw, rfl⟩
    · exact ⟨_, 0, hu, rfl⟩
  have h1 := designatorF_sound hn h
  refine ⟨h1, ?_⟩
  rw [List.map_append]
  refine unbroken_append (procDes_unbroken h1) ?_
  rcases hsp.2 with ⟨rfl, _⟩ | ⟨m, _, hm, hv⟩
  · exact .nil
  · exact group_unbroken hm hv

/-- A function reference is all that is left. -/
theorem callL_ends {u v z : List Tok} (hsp : SplitAt (u ++ v) u v) (h : callL u v = some z) : z = [] := by
  rw [callL] at h
  split at h
  · rcases hsp.2 with ⟨rfl, _⟩ | ⟨m, _, hm, hv⟩
    · rw [show argumentsF.run [] = none by decide +kernel] at h; cases h
    · have hn : Nested (v.map (·.token)) := by rw [hv]; exact ⟨_, 0, .paren hm .nil, rfl⟩
      obtain ⟨w, rfl, hw⟩ := run_sound argumentsF v z hn h
      have hw := (sameForm_is (a := argumentsF.erase) (b := Std.arguments) (by decide +kernel) w).mp hw
      obtain ⟨m', hm', hv'⟩ := paren_is (by decide) hw
      rw [List.map_append, hv', List.cons_append] at hv
      injection hv with _ hv
      have h1 := scanP_close (rest := []) hm
      rw [List.append_assoc] at hv
      rw [← hv] at h1
      rw [show m' ++ ([Tag.TK_PARENR] ++ z.map (·.token)) = m' ++ Tag.TK_PARENR :: z.map (·.token) by simp, scanP_close hm'] at h1
      have h2 := congrArg List.length hv
      simp at h2
      exact List.length_eq_zero_iff.mp (by omega)
  · cases h

end SP
end FLPR
