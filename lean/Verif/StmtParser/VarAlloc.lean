import Verif.StmtParser.VarMain
/-!
# The list of objects of an allocate statement
-/

namespace FLPR
namespace SP
open Spec

/-- An object: parts of a data reference, the last of them without subscripts. -/
inductive Comp : List Tok → Prop where
  | one {a : Tok} : NameTag a.token → Comp [a]
  | cons {w v : List Tok} {b : Bool} {p : Tok} : Part w b → p.token = Tag.TK_PERCENT → Comp v → Comp (w ++ p :: v)

theorem comp_of {w : List Tok} (h : Std.allocateObject.Is w) : Comp w := by
  rcases h with h | h
  · obtain ⟨u, _, rfl, hu, _, _, rfl, ⟨p, rfl, hp⟩, q, _, rfl, ⟨ps, rfl, hps⟩, _, _, rfl, ⟨a, rfl, ha⟩, rfl⟩ := h
    obtain ⟨b, hb⟩ := part_of hu
    refine .cons hb hp ?_
    induction ps with
    | nil => exact .one ha
    | cons q ps ih =>
      obtain ⟨_, v, _, rfl, hv, _, _, rfl, ⟨p, rfl, hp⟩, rfl⟩ := hps q (by simp)
      obtain ⟨b, hb⟩ := part_of hv
      have := Comp.cons hb hp (ih (fun q hq => hps q (by simp [hq])))
      simpa using this
  · rcases h with ⟨a, rfl, ha⟩ | h
    · exact .one ha
    · exact absurd h id

/-- What may follow an object. -/
def Follow (u : List Tok) : Prop :=
  PForm.headTag u ≠ Tag.TK_PERCENT ∧ PForm.headTag u ≠ Tag.TK_EQUAL ∧
    (PForm.headTag u = Tag.TK_PARENL → ∃ g v m, u = g ++ v ∧ WellNested m ∧ g.map (·.token) = Tag.TK_PARENL :: (m ++ [Tag.TK_PARENR]) ∧
      PForm.headTag v ≠ Tag.TK_PERCENT)

theorem group_unique {g g' v v' : List Tok} {m m' : List Int} (e : g ++ v = g' ++ v') (hm : WellNested m) (hm' : WellNested m')
    (h : g.map (·.token) = Tag.TK_PARENL :: (m ++ [Tag.TK_PARENR])) (h' : g'.map (·.token) = Tag.TK_PARENL :: (m' ++ [Tag.TK_PARENR])) :
    v = v' := by
  have e1 := congrArg (List.map (fun a : Tok => a.token)) e
  rw [List.map_append, List.map_append, h, h', List.cons_append, List.cons_append, List.append_assoc, List.append_assoc] at e1
  injection e1 with _ e1
  have h1 := scanP_close (rest := v.map (·.token)) hm
  have h2 := scanP_close (rest := v'.map (·.token)) hm'
  have e2 : m ++ Tag.TK_PARENR :: v.map (·.token) = m' ++ Tag.TK_PARENR :: v'.map (·.token) := by simpa using e1
  rw [e2, h2] at h1
  have l1 := congrArg List.length h
  have l2 := congrArg List.length h'
  simp at l1 l2
  exact (List.append_inj e (by omega)).2

theorem part_name {a : Tok} {u : List Tok} (ha : NameTag a.token) (hf : Follow u) (hn : Nested (u.map (·.token))) :
    ∃ r, partF.run (a :: u) = some r ∧ PForm.headTag r ≠ Tag.TK_PERCENT := by
  rw [partF, PForm.run, PForm.run, PForm.take1, if_pos (by simpa using ha), Option.bind_some, PForm.run, PForm.run]
  cases hs : sectionsF.run u with
  | none => exact ⟨u, rfl, hf.1⟩
  | some r =>
    refine ⟨r, rfl, ?_⟩
    obtain ⟨g', e', hg'⟩ := run_sound _ _ _ hn hs
    have hg' := (sameForm_is (a := sectionsF.erase) (b := Std.sections) (by decide +kernel) g').mp hg'
    obtain ⟨m', hm', hv'⟩ := paren_is (by decide) hg'
    have hh : PForm.headTag u = Tag.TK_PARENL := by
      cases g' with
      | nil => cases hv'
      | cons c g' => rw [e']; injection hv'
    obtain ⟨g, v, m, e, hm, hv, hp⟩ := hf.2.2 hh
    rw [← group_unique (e.symm.trans e') hm hm' hv hv']
    exact hp

def partsF : PForm := .seq partF (.seq (.tok Tag.TK_PERCENT) .eps)
def componentF : PForm :=
  .seq partF (.seq (.tok Tag.TK_PERCENT) (.seq (.star partsF) (.seq .name (.seq (.alt .never .eps) .eps))))
def objectF : PForm := .alt componentF (.alt (.seq .name (.seq (.notPeek Tag.TK_EQUAL) .eps)) .never)
def shapeF : PForm := (toFormG plainBody 20 (.parens Tag.HOIST [.list Tag.SG_ALLOCATE_SHAPE_SPEC_LIST (.rule .allocate_shape_spec)])).getD .never
def coshapeF : PForm := (toFormG plainBody 20 (.brackets Tag.HOIST [.rule .allocate_coarray_spec])).getD .never
def allocationF : PForm := .seq objectF (.seq (.notPeek Tag.TK_EQUAL) (.seq (.alt shapeF .eps) (.seq (.alt coshapeF .eps) .eps)))

theorem allocationF_eq : toFormG plainBody 40 (.rule .allocation) = some allocationF := by decide +kernel

theorem tok_head {t : Int} {u : List Tok} (h : PForm.headTag u ≠ t) : (PForm.tok t).run u = none := by
  cases u with
  | nil => rfl
  | cons a u =>
    have h : a.token ≠ t := h
    rw [PForm.run, PForm.take1, if_neg (by simpa using h)]

theorem tok_take {t : Int} {a : Tok} {u : List Tok} (h : a.token = t) : (PForm.tok t).run (a :: u) = some u := by
  rw [PForm.run, PForm.take1, if_pos (by simpa using h)]

theorem bare_run {a : Tok} {u : List Tok} (ha : NameTag a.token) :
    (PForm.seq .name (.seq (.notPeek Tag.TK_EQUAL) .eps)).run (a :: u) = if PForm.headTag u = Tag.TK_EQUAL then none else some u := by
  rw [PForm.run, PForm.run, PForm.take1, if_pos (by simpa using ha), Option.bind_some, PForm.run, PForm.run]
  split <;> rfl

theorem parts_take {w u : List Tok} (h : Comp w) (hf : Follow u) (hn : Nested (u.map (·.token))) (hb : NoBad (w ++ u)) :
    ∃ a, NameTag a.token ∧ ∀ n, (w ++ u).length ≤ n → PForm.starL partsF.run n (w ++ u) = a :: u := by
  induction h with
  | @one a ha =>
    refine ⟨a, ha, fun n hl => ?_⟩
    cases n with
    | zero => simp at hl
    | succ n =>
      obtain ⟨r, h1, h2⟩ := part_name ha hf hn
      have : partsF.run (a :: u) = none := by
        rw [partsF, PForm.run, h1, Option.bind_some, PForm.run, tok_head h2]; rfl
      show PForm.starL partsF.run (n + 1) (a :: u) = _
      rw [PForm.starL, this]
  | @cons w v b p h1 h2 h3 ih =>
    rw [List.append_assoc, List.cons_append] at hb ⊢
    have hb2 : NoBad (v ++ u) := fun c hc => hb c (by simp at hc ⊢; tauto)
    obtain ⟨a, ha, hs⟩ := ih hb2
    refine ⟨a, ha, fun n hl => ?_⟩
    cases n with
    | zero => simp at hl
    | succ n =>
      have : partsF.run (w ++ p :: (v ++ u)) = some (v ++ u) := by
        rw [partsF, PForm.run, part_take h1 hb (fun _ => by show p.token ≠ _; rw [h2]; decide), Option.bind_some, PForm.run, tok_take h2]
        rfl
      rw [PForm.starL, this]
      simp only
      simp only [List.length_append, List.length_cons] at hl
      rw [if_pos (by simp only [List.length_append, List.length_cons]; omega)]
      exact hs n (by simp only [List.length_append]; omega)

theorem object_take {w u : List Tok} (h : Comp w) (hf : Follow u) (hn : Nested (u.map (·.token))) (hb : NoBad (w ++ u)) :
    objectF.run (w ++ u) = some u := by
  rw [objectF, PForm.run]
  cases h with
  | @one a ha =>
    obtain ⟨r, h1, h2⟩ := part_name ha hf hn
    have : componentF.run ([a] ++ u) = none := by
      rw [List.singleton_append, componentF, PForm.run, h1, Option.bind_some, PForm.run, tok_head h2]; rfl
    rw [this]
    simp only
    rw [PForm.run, List.singleton_append, bare_run ha, if_neg hf.2.1]
  | @cons w v b p h1 h2 h3 =>
    rw [List.append_assoc, List.cons_append] at hb ⊢
    have hb2 : NoBad (v ++ u) := fun c hc => hb c (by simp at hc ⊢; tauto)
    obtain ⟨a, ha, hs⟩ := parts_take h3 hf hn hb2
    have : componentF.run (w ++ p :: (v ++ u)) = some u := by
      rw [componentF, PForm.run, part_take h1 hb (fun _ => by show p.token ≠ _; rw [h2]; decide), Option.bind_some, PForm.run, tok_take h2,
        Option.bind_some, PForm.run, PForm.run, hs _ (le_refl _), Option.bind_some, PForm.run, PForm.run, PForm.take1,
        if_pos (by simpa using ha)]
      rfl
    rw [this]

theorem shape_take {w u : List Tok} (hb : NoBad (w ++ u)) (h : (Form.paren (.list Std.explicitShape)).Is w) : shapeF.run (w ++ u) = some u := by
  refine (chk_sound (ex := []) ⟨4, true⟩ 60).1 shapeF [.any] (by decide +kernel) w [] u hb ((eraseBut_nil _ _).mpr ?_) any_shas
  exact (sameForm_is (a := shapeF.erase) (b := .paren (.list Std.explicitShape)) (by decide +kernel) w).mpr h

/-- The codimensions in an allocation. -/
def coForm : Form :=
  .bracket (.seqs [.opt (.seqs [.list Std.explicitShape, Std.comma]), .opt (.seqs [.expr, Std.colon]), Std.star_])

theorem coshape_take {w u : List Tok} (hb : NoBad (w ++ u)) (h : coForm.Is w) : coshapeF.run (w ++ u) = some u := by
  refine (chk_sound (ex := []) ⟨4, true⟩ 60).1 coshapeF [.any] (by decide +kernel) w [] u hb ((eraseBut_nil _ _).mpr ?_) any_shas
  exact (sameForm_is (a := coshapeF.erase) (b := coForm) (by decide +kernel) w).mpr h

theorem shapeF_paren : ∃ G, shapeF = .seq (.tok Tag.TK_PARENL) G := ⟨_, rfl⟩
theorem coshapeF_bracket : ∃ G, coshapeF = .seq (.tok Tag.TK_BRACKETL) G := ⟨_, rfl⟩

theorem allocation_take {w u : List Tok} (h : Std.allocation.Is w) (hn : Nested ((w ++ u).map (·.token))) (hb : NoBad (w ++ u))
    (hu : PForm.headTag u = Tag.TK_COMMA ∨ PForm.headTag u = Tag.TK_PARENR) : allocationF.run (w ++ u) = some u := by
  obtain ⟨o, _, rfl, ho, p, _, rfl, hp, c, _, rfl, hc, rfl⟩ := h
  rw [List.append_nil, List.append_assoc, List.append_assoc] at hb hn ⊢
  have hc : coForm.Is c ∨ c = [] := hc
  have hne : ∀ t ∈ [Tag.TK_PERCENT, Tag.TK_EQUAL, Tag.TK_PARENL, Tag.TK_BRACKETL], PForm.headTag u ≠ t := by
    intro t ht e
    rcases hu with hu | hu <;> rw [hu] at e <;> subst e <;> revert ht <;> decide
  have hcu : ∀ t ∈ [Tag.TK_PERCENT, Tag.TK_EQUAL, Tag.TK_PARENL], PForm.headTag (c ++ u) ≠ t := by
    intro t ht
    rcases hc with hc | rfl
    · obtain ⟨_, _, rfl, ⟨a, rfl, ha⟩, _⟩ := hc
      show a.token ≠ t
      rw [ha]; rintro rfl; revert ht; decide
    · exact hne t (by revert ht; simp; tauto)
  have hpu : Follow (p ++ (c ++ u)) := by
    rcases hp with hp | hp
    · obtain ⟨m, hm, hv⟩ := paren_is (by decide) hp
      have hh : PForm.headTag (p ++ (c ++ u)) = Tag.TK_PARENL := by
        cases p with
        | nil => cases hv
        | cons a p => injection hv
      exact ⟨by rw [hh]; decide, by rw [hh]; decide, fun _ => ⟨p, c ++ u, m, rfl, hm, hv, hcu _ (by simp)⟩⟩
    · rw [show p = [] from hp, List.nil_append]
      exact ⟨hcu _ (by simp), hcu _ (by simp), fun h => absurd h (hcu _ (by simp))⟩
  rw [List.map_append] at hn
  have hcrun : ((PForm.alt coshapeF .eps).run (c ++ u)) = some u := by
    rw [PForm.run]
    rcases hc with hc | rfl
    · rw [coshape_take hb.right.right hc]
    · obtain ⟨G, hG⟩ := coshapeF_bracket
      have : coshapeF.run u = none := by
        rw [hG, PForm.run, tok_head (hne _ (by simp))]; rfl
      rw [List.nil_append, this]
      rfl
  have hprun : ((PForm.alt shapeF .eps).run (p ++ (c ++ u))) = some (c ++ u) := by
    rw [PForm.run]
    rcases hp with hp | hp
    · rw [shape_take hb.right hp]
    · rw [show p = [] from hp, List.nil_append]
      obtain ⟨G, hG⟩ := shapeF_paren
      rw [paren_fails hG (hcu _ (by simp))]
      rfl
  rw [allocationF, PForm.run, object_take (comp_of ho) hpu hn.suffix hb, Option.bind_some, PForm.run, PForm.run, if_neg hpu.2.1, Option.bind_some,
    PForm.run, hprun, Option.bind_some, PForm.run, hcrun]
  rfl

/-- A list of allocations. -/
def allocListF : PForm :=
  .seq allocationF (.seq (.star (.seq (.tok Tag.TK_COMMA) (.seq allocationF .eps))) .eps)

/-- What may follow the list. -/
def allocEnd (p : Pat) : Bool :=
  match p.ss with
  | .word t :: ss => t == Tag.TK_PARENR || (t == Tag.TK_COMMA && match ss with
    | .word a :: .word e :: _ => decide (NameTag a) && e == Tag.TK_EQUAL
    | _ => false)
  | _ => false

theorem allocation_not {a e : Tok} {u : List Tok} (ha : NameTag a.token) (he : e.token = Tag.TK_EQUAL) : allocationF.run (a :: e :: u) = none := by
  obtain ⟨G, hG⟩ := sectionsF_paren
  have h1 : partF.run (a :: e :: u) = some (e :: u) := by
    rw [partF, PForm.run, PForm.run, PForm.take1, if_pos (by simpa using ha), Option.bind_some, PForm.run, PForm.run,
      paren_fails hG (by show e.token ≠ _; rw [he]; decide)]
    rfl
  have h2 : componentF.run (a :: e :: u) = none := by
    rw [componentF, PForm.run, h1, Option.bind_some, PForm.run, tok_head (by show e.token ≠ _; rw [he]; decide)]; rfl
  have h3 : objectF.run (a :: e :: u) = none := by
    rw [objectF, PForm.run, h2]
    simp only
    rw [PForm.run, bare_run ha, if_pos (by exact he)]
    rfl
  rw [allocationF, PForm.run, h3]; rfl

theorem allocList_take {S : List Pat} (hS : S.all allocEnd = true) {w u0 u : List Tok} (hn : Nested ((w ++ u).map (·.token))) (hb : NoBad (w ++ u))
    (h : (Form.list Std.allocation).Is w) (hu : SHas [] S u0 u) : allocListF.run (w ++ u) = some u := by
  obtain ⟨p, hp, segs, tl, hfit, rfl⟩ := all_shas hS hu
  have hend : (PForm.headTag (flatU segs tl) = Tag.TK_COMMA ∨ PForm.headTag (flatU segs tl) = Tag.TK_PARENR) ∧
      (PForm.seq (.tok Tag.TK_COMMA) (.seq allocationF .eps)).run (flatU segs tl) = none := by
    obtain ⟨ss, o, mk⟩ := p
    rw [allocEnd] at hp
    dsimp only at hp hfit
    split at hp
    · next t ss' =>
      obtain ⟨w1, segs1, rfl, ⟨c, rfl, hc⟩, hfit1⟩ := fits_cons hfit
      rw [Bool.or_eq_true, beq_iff_eq] at hp
      rcases hp with rfl | hp
      · refine ⟨.inr hc, ?_⟩
        rw [PForm.run, tok_head (by show c.token ≠ _; rw [hc]; decide)]; rfl
      · rw [Bool.and_eq_true, beq_iff_eq] at hp
        obtain ⟨rfl, hp⟩ := hp
        refine ⟨.inl hc, ?_⟩
        split at hp
        · next a e ss2 =>
          rw [Bool.and_eq_true, decide_eq_true_iff, beq_iff_eq] at hp
          obtain ⟨w2, segs2, rfl, ⟨a', rfl, ha⟩, hfit2⟩ := fits_cons hfit1
          obtain ⟨w3, segs3, rfl, ⟨e', rfl, he⟩, _⟩ := fits_cons hfit2
          rw [PForm.run, flatU_cons, List.singleton_append, tok_take hc, Option.bind_some, flatU_cons, flatU_cons, List.singleton_append,
            List.singleton_append, PForm.run, allocation_not (by rw [ha]; exact hp.1) (he.trans hp.2)]
          rfl
        · cases hp
    · cases hp
  generalize flatU segs tl = u at *
  obtain ⟨x, y, rfl, hx, ps, rfl, hps⟩ := h
  have head : ∀ ps : List (List Tok), (∀ q ∈ ps, q ≠ [] ∧ (Form.seq (.word Tag.TK_COMMA) Std.allocation).Is q) →
      PForm.headTag (ps.flatten ++ u) = Tag.TK_COMMA ∨ PForm.headTag (ps.flatten ++ u) = Tag.TK_PARENR := by
    intro ps hps
    cases ps with
    | nil => exact hend.1
    | cons q ps =>
      obtain ⟨_, _, _, rfl, ⟨c, rfl, hc⟩, _⟩ := hps q (by simp)
      exact .inl hc
  have key : ∀ (ps : List (List Tok)) (n : Nat), (∀ q ∈ ps, q ≠ [] ∧ (Form.seq (.word Tag.TK_COMMA) Std.allocation).Is q) →
      Nested ((ps.flatten ++ u).map (·.token)) → NoBad (ps.flatten ++ u) → (ps.flatten ++ u).length ≤ n →
      PForm.starL (PForm.seq (.tok Tag.TK_COMMA) (.seq allocationF .eps)).run n (ps.flatten ++ u) = u := by
    intro ps
    induction ps with
    | nil =>
      intro n _ _ _ _
      rw [List.flatten_nil, List.nil_append]
      cases n with
      | zero => rfl
      | succ n => rw [PForm.starL, hend.2]
    | cons q ps ih =>
      intro n hps hn hb hl
      obtain ⟨_, _, v, rfl, ⟨c, rfl, hc⟩, hv⟩ := hps q (by simp)
      rw [List.flatten_cons, List.append_assoc, List.append_assoc, List.singleton_append] at hn hb hl ⊢
      have hn1 : Nested ((v ++ (ps.flatten ++ u)).map (·.token)) := Nested.suffix (a := [c.token]) hn
      have hb1 : NoBad (v ++ (ps.flatten ++ u)) := fun b hb' => hb b (List.mem_cons_of_mem _ hb')
      cases n with
      | zero => simp at hl
      | succ n =>
        have hps' : ∀ q ∈ ps, q ≠ [] ∧ (Form.seq (.word Tag.TK_COMMA) Std.allocation).Is q := fun q hq => hps q (by simp [hq])
        have hrun : (PForm.seq (.tok Tag.TK_COMMA) (.seq allocationF .eps)).run (c :: (v ++ (ps.flatten ++ u))) = some (ps.flatten ++ u) := by
          rw [PForm.run, tok_take hc, Option.bind_some, PForm.run, allocation_take hv hn1 hb1 (head ps hps')]
          rfl
        rw [PForm.starL, hrun]
        simp only
        rw [List.length_cons, List.length_append] at hl
        rw [if_pos (by rw [List.length_cons, List.length_append (as := v)]; omega)]
        rw [List.map_append] at hn1
        exact ih n hps' hn1.suffix hb1.right (by omega)
  rw [List.append_assoc] at hn hb ⊢
  rw [allocListF, PForm.run, allocation_take hx hn hb (head ps hps), Option.bind_some, PForm.run, PForm.run]
  rw [List.map_append] at hn
  rw [key ps _ hps hn.suffix hb.right (le_refl _)]
  rfl

theorem allocListF_erase : sameForm allocListF.erase (.list Std.allocation) = true := by decide +kernel

/-- What is known of the list. -/
def allocAx : PForm → List Pat → Bool := fun F S => F == allocListF && S.all allocEnd

theorem allocAx_sound : ∀ F S, allocAx F S = true → TakesN [] F S := by
  intro F S h w u0 u hb hw hu
  rw [allocAx, Bool.and_eq_true, beq_iff_eq] at h
  obtain ⟨rfl, hS⟩ := h
  exact allocList_take hS hb.2 hb.1 ((sameForm_is allocListF_erase w).mp ((eraseBut_nil _ _).mp hw)) hu

end SP
end FLPR
