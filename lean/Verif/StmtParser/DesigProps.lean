import Verif.StmtParser.DesigMain
/-!
# C78: assignments, calls, where and nullify statements are recognised exactly

On statements without image selectors.  `Std.assignmentStmt` etc. are the forms of the standard (DesigStd).
-/

namespace FLPR
namespace SP
open Spec

/-- C78 for assignments: a statement is recognised exactly if it is a designator, an equals sign and an
expression, and parsing it is never undefined. -/
theorem C78_assignment (x : Exts) (hx : GoodExts x) (hf : x.Forward) (s : Strm) (hs : WholeStmt s) (hn : NoImages s.all) :
    (Recognised x Tag.SG_ASSIGNMENT_STMT s ↔ Std.assignmentStmt.Is (restOf s)) ∧
      ∀ out, DispatchReturns x Tag.SG_ASSIGNMENT_STMT s out → ∃ w, out = .ok w := by
  obtain ⟨r, hd, hi, _⟩ := assign_fresh hx (whole_fresh hs)
  obtain ⟨h1, h2⟩ := recognised_does hx hf (tag := Tag.SG_ASSIGNMENT_STMT) (r := .assignment_stmt) (by decide +kernel)
    (by decide) (whole_fresh hs).good hn hd
  exact ⟨h1.trans hi, h2⟩

/-- C78 for calls. -/
theorem C78_call (x : Exts) (hx : GoodExts x) (hf : x.Forward) (s : Strm) (hs : WholeStmt s) (hn : NoImages s.all) :
    (Recognised x Tag.SG_CALL_STMT s ↔ Std.callStmt.Is (restOf s)) ∧
      ∀ out, DispatchReturns x Tag.SG_CALL_STMT s out → ∃ w, out = .ok w := by
  obtain ⟨r, hd, hi⟩ := does_call hx (whole_fresh hs)
  obtain ⟨h1, h2⟩ := recognised_does hx hf (tag := Tag.SG_CALL_STMT) (r := .call_stmt) (by decide +kernel)
    (by decide) (whole_fresh hs).good hn hd
  exact ⟨h1.trans hi, h2⟩

/-- C78 for where statements, unless nothing stands behind the mask.  Missing: `where (mask)` alone, for which
see `C78_violation_where`. -/
theorem C78_where_partial (x : Exts) (hx : GoodExts x) (hf : x.Forward) (s : Strm) (hs : WholeStmt s) (hn : NoImages s.all)
    (hm : ¬ Std.whereMask.Is (restOf s)) :
    (Recognised x Tag.SG_WHERE_STMT s ↔ Std.whereStmt.Is (restOf s)) ∧
      ∀ out, DispatchReturns x Tag.SG_WHERE_STMT s out → ∃ w, out = .ok w := by
  obtain ⟨r, hd, hi⟩ := does_where hx (whole_fresh hs) hm
  obtain ⟨h1, h2⟩ := recognised_does hx hf (tag := Tag.SG_WHERE_STMT) (r := .where_stmt) (by decide +kernel)
    (by decide) (whole_fresh hs).good hn hd
  exact ⟨h1.trans hi, h2⟩

def nullifyF : PForm := (toFormG plainBody 40 (.rule .nullify_stmt)).getD .never

theorem nullifyF_eq : toFormG plainBody 40 (.rule .nullify_stmt) = some nullifyF := by decide +kernel

/-- C78 for nullify statements. -/
theorem C78_nullify (x : Exts) (hx : GoodExts x) (hf : x.Forward) (s : Strm) (hs : GoodStmt s) (hn : NoImages s.all) :
    (Recognised x Tag.SG_NULLIFY_STMT s ↔ Std.nullifyStmt.Is (restOf s)) ∧
      ∀ out, DispatchReturns x Tag.SG_NULLIFY_STMT s out → ∃ w, out = .ok w := by
  have hd := does_form (s := s) hx nullifyF_eq (by decide +kernel) (by decide +kernel) hs
  obtain ⟨h1, h2⟩ := recognised_does hx hf (tag := Tag.SG_NULLIFY_STMT) (r := .nullify_stmt) (by decide +kernel)
    (by decide) hs hn hd
  refine ⟨h1.trans ?_, h2⟩
  have same := sameForm_is (a := nullifyF.erase) (b := Std.nullifyStmt) (by decide +kernel) (restOf s)
  have hnest := good_nested hs
  constructor
  · rintro ⟨z, hz⟩
    have := endsF_sound _ _ _ (by decide +kernel) hnest (good_noBad hs) hz
    subst this
    obtain ⟨w, e1, e2⟩ := run_sound _ _ _ hnest hz
    rw [List.append_nil] at e1
    rw [← e1] at e2
    exact same.mp e2
  · intro h
    exact ⟨[], takesAll_sound (ex := []) (by decide +kernel) (good_noBad hs) ((eraseBut_nil _ _).mpr (same.mpr h))⟩

/-! ### Where the parsers differ from the standard -/

/-- A statement that is `where (mask)` and nothing else, the first statement of a where construct, is given
to the parser of where statements by `executable_construct` (Prgm_Parsers_impl.hh:148-162, through
`action_stmt`): the parser runs into undefined behaviour, whatever the mask. -/
theorem C78_violation_where (x : Exts) (hx : GoodExts x) (hf : x.Forward) (s : Strm) (hs : WholeStmt s) (hn : NoImages s.all)
    (hm : Std.whereMask.Is (restOf s)) : DispatchReturns x Tag.SG_WHERE_STMT s (.error .ub) :=
  stuck_ub hx hf (by decide +kernel) (by decide) (whole_fresh hs).good hn (stuck_where hx (whole_fresh hs) hm)

/-- `where (m)` as an action statement. -/
theorem C78_violation_where_action :
    DispatchReturns noExts Tag.SG_ACTION_STMT (lineOf [Tag.KW_WHERE, Tag.TK_PARENL, Tag.TK_NAME, Tag.TK_PARENR]) (.error .ub) := by
  rw [dispatch_iff, show dispatchTable.find? (fun q => q.1 == Tag.SG_ACTION_STMT) = some (Tag.SG_ACTION_STMT, .action_stmt) by decide +kernel]
  exact returns_ub 40 (by decide +kernel)

/-- `f() = 3`, R902: a reference to a function with a pointer result is a variable. -/
theorem C78_violation_function_variable :
    ¬ Recognised noExts Tag.SG_ASSIGNMENT_STMT
      (lineOf [Tag.TK_NAME, Tag.TK_PARENL, Tag.TK_PARENR, Tag.TK_EQUAL, Tag.SG_INT_LITERAL_CONSTANT]) :=
  not_recognised (r := .assignment_stmt) (by decide +kernel) (by decide +kernel)

/-- `call s(*10)`, R1525: an alternate return is an actual argument. -/
theorem C78_violation_alternate_return :
    ¬ Recognised noExts Tag.SG_CALL_STMT
      (lineOf [Tag.KW_CALL, Tag.TK_NAME, Tag.TK_PARENL, Tag.TK_ASTERISK, Tag.SG_INT_LITERAL_CONSTANT, Tag.TK_PARENR]) :=
  not_recognised (r := .call_stmt) (by decide +kernel) (by decide +kernel)

/-! ### Examples -/

/-- A line is a whole statement. -/
theorem wholeStmt_of {ts : List Int} (h1 : ∀ t ∈ ts, LexerTag t) (h2 : WellNested ts) : WholeStmt (lineOf ts) := by
  have hg := good_of h1 h2
  refine ⟨rfl, hg.pos_hi, hg.hi_len, hg.tags, ?_⟩
  have e : restOf (lineOf ts) = ts.map tokOf := by
    have : restOf (lineOf ts) = ((ts.map tokOf).take ts.length).drop 0 := rfl
    rw [this, List.drop_zero, List.take_of_length_le (by simp)]
  rw [e, List.map_map]
  rwa [show ts.map ((·.token) ∘ tokOf) = ts from List.map_id' ts]

theorem noImages_of {ts : List Int}
    (h : (ts.zip (ts.drop 1)).all (fun p => !(decide (BeforeImage p.1) && p.2 == Tag.TK_BRACKETL)) = true) :
    NoImages (lineOf ts).all := by
  intro i a b ha hb hi hc
  have ha1 : (ts.map tokOf)[i]? = some a := ha
  have hb1 : (ts.map tokOf)[i + 1]? = some b := hb
  clear ha hb
  rw [List.getElem?_map, Option.map_eq_some_iff] at ha1 hb1
  obtain ⟨a', ha, rfl⟩ := ha1
  obtain ⟨b', hb, rfl⟩ := hb1
  have hmem : (a', b') ∈ ts.zip (ts.drop 1) := by
    refine List.mem_of_getElem? (i := i) ?_
    rw [List.getElem?_zip_eq_some]
    exact ⟨ha, by rw [List.getElem?_drop, Nat.add_comm]; exact hb⟩
  have := List.all_eq_true.mp h _ hmem
  simp only [Bool.not_eq_true', Bool.and_eq_false_iff, decide_eq_false_iff_not, beq_eq_false_iff_ne] at this
  rcases this with h | h
  · exact h hi
  · exact h hc

theorem recognised_of {tag : Int} {r : R} {ts : List Int}
    (hd : dispatchTable.find? (fun q => q.1 == tag) = some (tag, r))
    (h : holdsFor (evalRule R.body noExts 40 r (lineOf ts)) (fun t _ => t.isSome) = true) : Recognised noExts tag (lineOf ts) := by
  obtain ⟨t, s', h1, h2⟩ := returns_of_holds 40 h
  obtain ⟨n, rfl⟩ := Option.isSome_iff_exists.mp h2
  exact ⟨n, s', by rw [dispatch_iff, hd]; exact h1⟩

/-- `a % b = [c]`: C78 says that it is recognised. -/
example : Recognised noExts Tag.SG_ASSIGNMENT_STMT (lineOf [Tag.TK_NAME, Tag.TK_PERCENT, Tag.TK_NAME, Tag.TK_EQUAL,
    Tag.TK_BRACKETL, Tag.TK_NAME, Tag.TK_BRACKETR]) := by
  refine (C78_assignment noExts goodExts_none forward_none _ (wholeStmt_of (goodTags_of (by decide +kernel)) ?_) (noImages_of (by decide +kernel))).1.mpr ?_
  · refine .plain ⟨by decide, by decide, by decide, by decide⟩ <| .plain ⟨by decide, by decide, by decide, by decide⟩ <|
      .plain ⟨by decide, by decide, by decide, by decide⟩ <| .plain ⟨by decide, by decide, by decide, by decide⟩ ?_
    exact .bracket (a := [Tag.TK_NAME]) (b := []) (.plain ⟨by decide, by decide, by decide, by decide⟩ .nil) .nil
  · refine ⟨[tokOf Tag.TK_NAME, tokOf Tag.TK_PERCENT, tokOf Tag.TK_NAME], _, rfl, ?_, [tokOf Tag.TK_EQUAL], _, rfl, ⟨_, rfl, rfl⟩,
      [tokOf Tag.TK_BRACKETL, tokOf Tag.TK_NAME, tokOf Tag.TK_BRACKETR], [], rfl, ?_, rfl⟩
    · have hp : Std.partRef.Is [tokOf Tag.TK_NAME] :=
        ⟨[tokOf Tag.TK_NAME], [], rfl, ⟨_, rfl, .inl rfl⟩, [], [], rfl, .inr rfl, rfl⟩
      exact ⟨_, [], rfl, ⟨[tokOf Tag.TK_NAME], _, rfl, hp, [tokOf Tag.TK_PERCENT, tokOf Tag.TK_NAME], [], rfl,
        ⟨[[tokOf Tag.TK_PERCENT, tokOf Tag.TK_NAME]], rfl, by
          intro w hw
          rw [List.mem_singleton] at hw
          subst hw
          exact ⟨by simp, [tokOf Tag.TK_PERCENT], [tokOf Tag.TK_NAME], rfl, ⟨_, rfl, rfl⟩, [tokOf Tag.TK_NAME], [], rfl, hp, rfl⟩⟩, rfl⟩,
        [], [], rfl, .inr rfl, rfl⟩
    · exact ⟨.bracket (a := [Tag.TK_NAME]) (b := []) (.plain ⟨by decide, by decide, by decide, by decide⟩ .nil) .nil, _, _, rfl, by decide, by decide⟩

/-- `call a % s(b)`, likewise, by what the parser returns. -/
example : WholeStmt (lineOf [Tag.KW_CALL, Tag.TK_NAME, Tag.TK_PERCENT, Tag.TK_NAME, Tag.TK_PARENL, Tag.TK_NAME, Tag.TK_PARENR]) ∧
    Std.callStmt.Is (restOf (lineOf [Tag.KW_CALL, Tag.TK_NAME, Tag.TK_PERCENT, Tag.TK_NAME, Tag.TK_PARENL, Tag.TK_NAME, Tag.TK_PARENR])) := by
  have hw : WholeStmt (lineOf [Tag.KW_CALL, Tag.TK_NAME, Tag.TK_PERCENT, Tag.TK_NAME, Tag.TK_PARENL, Tag.TK_NAME, Tag.TK_PARENR]) := by
    refine wholeStmt_of (goodTags_of (by decide +kernel)) ?_
    refine .plain ⟨by decide, by decide, by decide, by decide⟩ <| .plain ⟨by decide, by decide, by decide, by decide⟩ <|
      .plain ⟨by decide, by decide, by decide, by decide⟩ <| .plain ⟨by decide, by decide, by decide, by decide⟩ ?_
    exact .paren (a := [Tag.TK_NAME]) (b := []) (.plain ⟨by decide, by decide, by decide, by decide⟩ .nil) .nil
  exact ⟨hw, (C78_call noExts goodExts_none forward_none _ hw (noImages_of (by decide +kernel))).1.mp
    (recognised_of (r := .call_stmt) (by decide +kernel) (by decide +kernel))⟩

/-- `where (m) a = b`, likewise. -/
example : WholeStmt (lineOf [Tag.KW_WHERE, Tag.TK_PARENL, Tag.TK_NAME, Tag.TK_PARENR, Tag.TK_NAME, Tag.TK_EQUAL, Tag.TK_NAME]) ∧
    NoImages (lineOf [Tag.KW_WHERE, Tag.TK_PARENL, Tag.TK_NAME, Tag.TK_PARENR, Tag.TK_NAME, Tag.TK_EQUAL, Tag.TK_NAME]).all ∧
    Recognised noExts Tag.SG_WHERE_STMT
      (lineOf [Tag.KW_WHERE, Tag.TK_PARENL, Tag.TK_NAME, Tag.TK_PARENR, Tag.TK_NAME, Tag.TK_EQUAL, Tag.TK_NAME]) := by
  refine ⟨?_, noImages_of (by decide +kernel), recognised_of (r := .where_stmt) (by decide +kernel) (by decide +kernel)⟩
  refine wholeStmt_of (goodTags_of (by decide +kernel)) ?_
  refine .plain ⟨by decide, by decide, by decide, by decide⟩ ?_
  exact .paren (a := [Tag.TK_NAME]) (b := [Tag.TK_NAME, Tag.TK_EQUAL, Tag.TK_NAME])
    (.plain ⟨by decide, by decide, by decide, by decide⟩ .nil)
    (.plain ⟨by decide, by decide, by decide, by decide⟩ <| .plain ⟨by decide, by decide, by decide, by decide⟩ <|
      .plain ⟨by decide, by decide, by decide, by decide⟩ .nil)

/-- `nullify(a % p)`, likewise. -/
example : GoodStmt (lineOf [Tag.KW_NULLIFY, Tag.TK_PARENL, Tag.TK_NAME, Tag.TK_PERCENT, Tag.TK_NAME, Tag.TK_PARENR]) ∧
    Recognised noExts Tag.SG_NULLIFY_STMT
      (lineOf [Tag.KW_NULLIFY, Tag.TK_PARENL, Tag.TK_NAME, Tag.TK_PERCENT, Tag.TK_NAME, Tag.TK_PARENR]) := by
  refine ⟨good_of (goodTags_of (by decide +kernel)) ?_, recognised_of (r := .nullify_stmt) (by decide +kernel) (by decide +kernel)⟩
  refine .plain ⟨by decide, by decide, by decide, by decide⟩ ?_
  exact .paren (a := [Tag.TK_NAME, Tag.TK_PERCENT, Tag.TK_NAME]) (b := [])
    (.plain ⟨by decide, by decide, by decide, by decide⟩ <| .plain ⟨by decide, by decide, by decide, by decide⟩ <|
      .plain ⟨by decide, by decide, by decide, by decide⟩ .nil) .nil

/-- `where (m)`, for which C78 finds undefined behaviour. -/
example : WholeStmt (lineOf [Tag.KW_WHERE, Tag.TK_PARENL, Tag.TK_NAME, Tag.TK_PARENR]) ∧
    Std.whereMask.Is (restOf (lineOf [Tag.KW_WHERE, Tag.TK_PARENL, Tag.TK_NAME, Tag.TK_PARENR])) := by
  constructor
  · refine wholeStmt_of (goodTags_of (by decide +kernel)) ?_
    refine .plain ⟨by decide, by decide, by decide, by decide⟩ ?_
    exact .paren (a := [Tag.TK_NAME]) (b := []) (.plain ⟨by decide, by decide, by decide, by decide⟩ .nil) .nil
  · refine ⟨[tokOf Tag.KW_WHERE], _, rfl, ⟨_, rfl, rfl⟩, [Tag.TK_PARENL, Tag.TK_NAME, Tag.TK_PARENR].map tokOf, [], rfl, ?_, rfl⟩
    refine ⟨[tokOf Tag.TK_PARENL], _, rfl, ⟨_, rfl, rfl⟩, [tokOf Tag.TK_NAME], [tokOf Tag.TK_PARENR], rfl,
      ⟨?_, _, _, rfl, by decide, by decide⟩, [tokOf Tag.TK_PARENR], [], rfl, ⟨_, rfl, rfl⟩, rfl⟩
    exact .plain ⟨by decide, by decide, by decide, by decide⟩ (by decide) (by decide) (by decide) .nil

end SP
end FLPR
