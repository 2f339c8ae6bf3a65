import Verif.StmtParser.VarAlloc
import Verif.StmtParser.DesigProps
/-!
# C79: the parser of variables, and the statements that call it

On statements without image selectors.  The forms of the standard are in VarStd.
-/

namespace FLPR
namespace SP
open Spec

/-- The rule of a statement. -/
def ruleFor (tag : Int) : Option R :=
  match dispatchTable.find? (fun q => q.1 == tag) with
  | some q => if q.2 ≠ .image_selector then some q.2 else none
  | none => none

theorem ruleFor_some {tag : Int} {r : R} (h : ruleFor tag = some r) :
    dispatchTable.find? (fun q => q.1 == tag) = some (tag, r) ∧ r ≠ .image_selector := by
  rw [ruleFor] at h
  split at h
  · next q hq =>
    split at h
    · next hi =>
      injection h with h
      subst h
      have := List.find?_some hq
      rw [beq_iff_eq] at this
      refine ⟨by rw [hq, ← this], hi⟩
    · cases h
  · cases h

/-- The form of a statement. -/
def varForm (tag : Int) : Option VForm := (ruleFor tag).bind fun r => toV 40 (.rule r)

theorem varForm_some {tag : Int} {V : VForm} (h : varForm tag = some V) :
    ∃ r, dispatchTable.find? (fun q => q.1 == tag) = some (tag, r) ∧ r ≠ .image_selector ∧ toV 40 (.rule r) = some V := by
  rw [varForm, Option.bind_eq_some_iff] at h
  obtain ⟨r, hr, hV⟩ := h
  exact ⟨r, (ruleFor_some hr).1, (ruleFor_some hr).2, hV⟩

def onForm (tag : Int) (p : VForm → Bool) : Bool :=
  match varForm tag with
  | some V => p V
  | none => false

theorem onForm_true {tag : Int} {p : VForm → Bool} (h : onForm tag p = true) :
    ∃ r V, dispatchTable.find? (fun q => q.1 == tag) = some (tag, r) ∧ r ≠ .image_selector ∧ toV 40 (.rule r) = some V ∧ p V = true := by
  rw [onForm] at h
  split at h
  · next V hV =>
    obtain ⟨r, h1, h2, h3⟩ := varForm_some hV
    exact ⟨r, V, h1, h2, h3, h⟩
  · cases h

def soundRow (tag : Int) (F : Form) : Bool := onForm tag fun V => V.shape && V.guard && sameForm (prune V.kill.erase) F

theorem soundRow_sound {x : Exts} (hx : GoodExts x) (hf : x.Forward) {tag : Int} {F : Form} (h : soundRow tag F = true) {s : Strm} (hs : WholeStmt s)
    (hn : NoImages s.all) (hr : Recognised x tag s) : F.Is (restOf s) := by
  obtain ⟨r, V, h1, h2, h3, h4⟩ := onForm_true h
  rw [Bool.and_eq_true, Bool.and_eq_true] at h4
  exact var_sound hx hf h1 h2 h3 h4.1.1 h4.1.2 h4.2 hs hn hr

def look3 : Look := ⟨3, true⟩

def exactRow (row : Int × Form) : Bool :=
  soundRow row.1 row.2 && onForm row.1 fun V => sameForm (prune V.kill.erase) row.2 && chkV [] noAx look3 60 V [.stop]

theorem exactRows : Std.withoutVariables.all exactRow = true := by decide +kernel

/-- C79 for statements that need no variable: they are recognised exactly if they have the form of the standard
without the specifiers that name a variable. -/
theorem C79_without_variables (x : Exts) (hx : GoodExts x) (hf : x.Forward) (s : Strm) (hs : WholeStmt s) (hn : NoImages s.all) :
    ∀ row ∈ Std.withoutVariables, (Recognised x row.1 s ↔ row.2.Is (restOf s)) := by
  intro row hrow
  have h := List.all_eq_true.mp exactRows row hrow
  rw [exactRow, Bool.and_eq_true] at h
  refine ⟨soundRow_sound hx hf h.1 hs hn, ?_⟩
  obtain ⟨r, V, h1, h2, h3, h4⟩ := onForm_true h.2
  rw [Bool.and_eq_true] at h4
  exact var_complete noAx_sound hx hf h1 h2 h3 h4.2 h4.1 hs hn

theorem neverRows : Std.needVariables.all (fun t => soundRow t .never) = true := by decide +kernel

/-- C79 for statements that name a variable in any case, R1179 etc.: `lock(l)`, `unlock(l)`, `event post(e)`,
`event wait(e)` and `form team(1, t)` are never recognised, whatever they are. -/
theorem C79_violation_never (x : Exts) (hx : GoodExts x) (hf : x.Forward) (s : Strm) (hs : WholeStmt s) (hn : NoImages s.all) :
    ∀ tag ∈ Std.needVariables, ¬ Recognised x tag s := fun tag ht h =>
  soundRow_sound hx hf (List.all_eq_true.mp neverRows tag ht) hs hn h

/-- The parser goes to a variable. -/
def ubRow (row : Int × Form × Form) (g : Way) : Bool :=
  onForm row.1 fun V => goes noAx look3 60 [.any] V g && sameForm (prune (V.along g).erase) (.seqs [row.2.1, .word Tag.TK_PARENL, row.2.2])

/-- A way, from letters. -/
def wayOf : List Char → Way
  | [] => .here
  | c :: cs =>
    if c = 'f' then .first (wayOf cs) else if c = 'n' then .next (wayOf cs) else if c = 'l' then .left (wayOf cs)
    else if c = 'r' then .right (wayOf cs) else .again (wayOf cs)

/-- The ways to the variables. -/
def ways : List Way :=
  ["nfnf", "nfnf", "nnfnf", "nnfnf", "nnfnfnnf", "nnflnflflnnf", "nnflnflfrlnnf", "nnflnflflnnf", "nnflnflfrlnnf",
   "nnfnnflnfflnnf", "nnfnnflnffrlnnf", "nnfnnflnfflnnf", "nnfnnflnffrlnnf", "nfnnflnffrlnnf", "nfnnflnfflnnf",
   "nfnffrrrrrlnnf", "nfnffrrrrrrlnnf", "nfnfnfanfrrrrrlnnf", "nfnfnfanfrrrrrrlnnf"].map fun w => wayOf w.toList

theorem zip_all {α β : Type} {p : α → β → Bool} {as : List α} {bs : List β} (hl : as.length ≤ bs.length)
    (h : (as.zip bs).all (fun q => p q.1 q.2) = true) : ∀ a ∈ as, ∃ b, p a b = true := by
  induction as generalizing bs with
  | nil => intro a ha; cases ha
  | cons c as ih =>
    cases bs with
    | nil => simp at hl
    | cons b bs =>
      rw [List.zip_cons_cons, List.all_cons, Bool.and_eq_true] at h
      intro a ha
      rcases List.mem_cons.mp ha with rfl | ha
      · exact ⟨b, h.1⟩
      · exact ih (by simpa using hl) h.2 a ha

theorem ubRows : (Std.beforeVariables.zip ways).all (fun q => ubRow q.1 q.2) = true := by decide +kernel

/-- Wherever a variable is named in a statement with parentheses, parsing the statement is undefined: `lock(l)`,
`deallocate(a, stat=i)`, `sync all(stat=i)`, `wait(10, iostat=i)` and so on, whatever the variable is and
whatever comes after it.  (`variable` calls `function_reference`, which calls `procedure_designator`,
parse_stmt.cc:2938-2990, and this one moves to the last parenthesis of the statement and back to the one that
matches it, in front of the place where it began.) -/
theorem C79_violation_variable (x : Exts) (hx : GoodExts x) (hf : x.Forward) (s : Strm) (hs : WholeStmt s) (hn : NoImages s.all) :
    ∀ row ∈ Std.beforeVariables, Begins row.2.1 row.2.2 (restOf s) → DispatchReturns x row.1 s (.error .ub) := by
  intro row hrow hb
  obtain ⟨g, hg⟩ := zip_all (by decide) ubRows row hrow
  obtain ⟨r, V, h1, h2, h3, h4⟩ := onForm_true hg
  rw [Bool.and_eq_true] at h4
  exact var_ub noAx_sound hx hf h1 h2 h3 g h4.1 h4.2 hs hn hb

/-- The parser goes to a variable that is missing. -/
def missRow (row : Int × Form × Form) (g : Way) : Bool :=
  balF [] row.2.2 == some [] && onForm row.1 fun V => goes noAx look3 60 [⟨[.word Tag.TK_PARENR], true, none⟩] V g &&
    sameForm (prune (V.along g).erase) (.seqs [row.2.1, .word Tag.TK_PARENL, row.2.2])

def missWays : List Way := ["nnnfnfnfrl", "nnnfnfnfrl", "nnfnffnnfrl", "nnfnfnfanfnnfrl"].map fun w => wayOf w.toList

theorem missRows : (Std.missing.zip missWays).all (fun q => missRow q.1 q.2) = true := by decide +kernel

/-- Where a selector is missing, parsing is undefined, too: `select type ()`, `select rank (a =>)`,
`associate (a =>)` and `associate (a => 1, b =>)`. -/
theorem C79_violation_missing (x : Exts) (hx : GoodExts x) (hf : x.Forward) (s : Strm) (hs : WholeStmt s) (hn : NoImages s.all) :
    ∀ row ∈ Std.missing, (Form.seqs [row.2.1, .paren row.2.2]).Is (restOf s) → DispatchReturns x row.1 s (.error .ub) := by
  intro row hrow hb
  obtain ⟨g, hg⟩ := zip_all (by decide) missRows row hrow
  rw [missRow, Bool.and_eq_true, beq_iff_eq] at hg
  obtain ⟨r, V, h1, h2, h3, h4⟩ := onForm_true hg.2
  rw [Bool.and_eq_true] at h4
  exact var_ub_empty noAx_sound hx hf h1 h2 h3 g h4.1 h4.2 hg.1 hs hn hb

/-! ### Select type and select rank -/

def renameF : PForm := .seq .name (.seq (.tok Tag.TK_ARROW) .eps)

def selectRow (row : Int × Int) : Bool :=
  soundRow row.1 (Std.selectWith row.2 (.opt (.seqs [.name, Std.arrow]))) && onForm row.1 fun V =>
    (chkV [] noAx look3 60 (V.put (.alt renameF .eps) renameF) [.stop] &&
      sameForm (prune (V.put (.alt renameF .eps) renameF).kill.erase) (Std.selectWith row.2 (.seqs [.name, Std.arrow]))) &&
    (chkV [] noAx look3 60 (V.put (.alt renameF .eps) .eps) [.stop] &&
      sameForm (prune (V.put (.alt renameF .eps) .eps).kill.erase) (Std.selectWith row.2 .empty))

theorem selectRows : [(Tag.SG_SELECT_TYPE_STMT, Tag.KW_TYPE), (Tag.SG_SELECT_RANK_STMT, Tag.KW_RANK)].all selectRow = true := by decide +kernel

theorem select_row {row : Int × Int} (h : selectRow row = true) (x : Exts) (hx : GoodExts x) (hf : x.Forward) (s : Strm) (hs : WholeStmt s)
    (hn : NoImages s.all) :
    (Recognised x row.1 s → (Std.selectWith row.2 (.opt (.seqs [.name, Std.arrow]))).Is (restOf s)) ∧
    ((Std.selectWith row.2 (.seqs [.name, Std.arrow])).Is (restOf s) → Recognised x row.1 s) ∧
    ((Std.selectWith row.2 .empty).Is (restOf s) → (∀ a ∈ restOf s, a.token ≠ Tag.TK_ARROW) → Recognised x row.1 s) := by
  rw [selectRow, Bool.and_eq_true] at h
  refine ⟨soundRow_sound hx hf h.1 hs hn, ?_, ?_⟩ <;> obtain ⟨r, V, h1, h2, h3, h4⟩ := onForm_true h.2 <;>
    rw [Bool.and_eq_true, Bool.and_eq_true, Bool.and_eq_true] at h4
  · exact var_complete_part noAx_sound hx hf h1 h2 h3 renameF renameF (ex := []) (fun _ _ _ h => h) h4.1.1 h4.1.2 hs hn (fun _ _ => by simp)
  · intro hw ht
    exact var_complete_empty noAx_sound hx hf h1 h2 h3 renameF Tag.TK_ARROW (by decide +kernel) h4.2.1 h4.2.2 hs hn ht hw

/-- C79 for select type statements.  Missing: that one without a new name is recognised if a `=>` stands within
its selector, which no valid selector has. -/
theorem C79_select_type_partial (x : Exts) (hx : GoodExts x) (hf : x.Forward) (s : Strm) (hs : WholeStmt s) (hn : NoImages s.all) :
    (Recognised x Tag.SG_SELECT_TYPE_STMT s → Std.selectType.Is (restOf s)) ∧
    ((Std.selectWith Tag.KW_TYPE (.seqs [.name, Std.arrow])).Is (restOf s) → Recognised x Tag.SG_SELECT_TYPE_STMT s) ∧
    ((Std.selectWith Tag.KW_TYPE .empty).Is (restOf s) → (∀ a ∈ restOf s, a.token ≠ Tag.TK_ARROW) →
      Recognised x Tag.SG_SELECT_TYPE_STMT s) :=
  select_row (row := (Tag.SG_SELECT_TYPE_STMT, Tag.KW_TYPE)) (List.all_eq_true.mp selectRows _ (by decide)) x hx hf s hs hn

/-- C79 for select rank statements, likewise. -/
theorem C79_select_rank_partial (x : Exts) (hx : GoodExts x) (hf : x.Forward) (s : Strm) (hs : WholeStmt s) (hn : NoImages s.all) :
    (Recognised x Tag.SG_SELECT_RANK_STMT s → Std.selectRank.Is (restOf s)) ∧
    ((Std.selectWith Tag.KW_RANK (.seqs [.name, Std.arrow])).Is (restOf s) → Recognised x Tag.SG_SELECT_RANK_STMT s) ∧
    ((Std.selectWith Tag.KW_RANK .empty).Is (restOf s) → (∀ a ∈ restOf s, a.token ≠ Tag.TK_ARROW) →
      Recognised x Tag.SG_SELECT_RANK_STMT s) :=
  select_row (row := (Tag.SG_SELECT_RANK_STMT, Tag.KW_RANK)) (List.all_eq_true.mp selectRows _ (by decide)) x hx hf s hs hn

/-! ### Allocate -/

def allocV : VForm := (toV 40 (.rule .allocate_stmt)).getD .var
theorem allocV_eq : toV 40 (.rule .allocate_stmt) = some allocV := by decide +kernel

def intrinsicF : PForm := (toFormG plainBody 40 (.rule .intrinsic_type_spec)).getD .never
def derivedF : PForm := (toFormG plainBody 40 (.rule .derived_type_spec)).getD .never
def dcolonF : PForm := .seq (.tok Tag.TK_DBL_COLON) .eps
def typedF : PForm := .seq (.alt intrinsicF (.alt derivedF .never)) dcolonF

def allocRow (G : PForm) (front : Form) : Bool :=
  chkV [] allocAx look3 60 (allocV.put (.alt typedF .eps) G) [.stop] &&
    sameForm (prune (allocV.put (.alt typedF .eps) G).kill.erase) (Std.allocateWith front)

theorem alloc_bare : allocRow .eps .empty = true := by decide +kernel
theorem alloc_intrinsic : allocRow (.seq intrinsicF dcolonF) (.seqs [Std.intrinsicTypeSpec, Std.dcolon]) = true := by decide +kernel
theorem alloc_derived : allocRow (.seq derivedF dcolonF) (.seqs [Std.derivedTypeSpec, Std.dcolon]) = true := by decide +kernel
theorem alloc_sound : soundRow Tag.SG_ALLOCATE_STMT Std.allocate = true := by decide +kernel

theorem typedF_has : hasF Tag.TK_DBL_COLON typedF.erase = true := by decide +kernel
theorem intrinsic_starts : startsF Std.intrinsicTypeNames intrinsicF = true := by decide +kernel

/-- C79 for allocate statements: one that is recognised has the form of the standard without `stat=` and
`errmsg=`; and such a statement is recognised if it has no type and no `::`, or an intrinsic type, or a derived
type and no keyword of an intrinsic type.  Missing: the keyword of an intrinsic type anywhere in a statement
with a derived type, and `::` within the bounds (in an array constructor) of a statement without a type. -/
theorem C79_allocate_partial (x : Exts) (hx : GoodExts x) (hf : x.Forward) (s : Strm) (hs : WholeStmt s) (hn : NoImages s.all) :
    (Recognised x Tag.SG_ALLOCATE_STMT s → Std.allocate.Is (restOf s)) ∧
    ((Std.allocateWith .empty).Is (restOf s) → (∀ a ∈ restOf s, a.token ≠ Tag.TK_DBL_COLON) → Recognised x Tag.SG_ALLOCATE_STMT s) ∧
    ((Std.allocateWith (.seqs [Std.intrinsicTypeSpec, Std.dcolon])).Is (restOf s) → Recognised x Tag.SG_ALLOCATE_STMT s) ∧
    ((Std.allocateWith (.seqs [Std.derivedTypeSpec, Std.dcolon])).Is (restOf s) →
      (∀ a ∈ restOf s, a.token ∉ Std.intrinsicTypeNames) → Recognised x Tag.SG_ALLOCATE_STMT s) := by
  have hr : dispatchTable.find? (fun q => q.1 == Tag.SG_ALLOCATE_STMT) = some (Tag.SG_ALLOCATE_STMT, .allocate_stmt) := by decide +kernel
  refine ⟨soundRow_sound hx hf alloc_sound hs hn, fun h ht => ?_, fun h => ?_, fun h ht => ?_⟩
  · have hc := alloc_bare
    rw [allocRow, Bool.and_eq_true] at hc
    exact var_complete_empty allocAx_sound hx hf hr (by decide) allocV_eq typedF Tag.TK_DBL_COLON typedF_has hc.1 hc.2 hs hn ht h
  · have hc := alloc_intrinsic
    rw [allocRow, Bool.and_eq_true] at hc
    exact var_complete_part allocAx_sound hx hf hr (by decide) allocV_eq typedF (.seq intrinsicF dcolonF) (ex := [])
      (fun ts r _ h => first_run ts r h) hc.1 hc.2 hs hn (fun _ _ => by simp) h
  · have hc := alloc_derived
    rw [allocRow, Bool.and_eq_true] at hc
    exact var_complete_part allocAx_sound hx hf hr (by decide) allocV_eq typedF (.seq derivedF dcolonF) (ex := Std.intrinsicTypeNames)
      (fun ts r ha h => second_run intrinsic_starts ts r ha h) hc.1 hc.2 hs hn ht h

def allocWays : List Way :=
  ["nfnfnnflnffrrrlnnf", "nfnfnnflnfflnnf", "nfnfnnflnfnfanfrrrlnnf", "nfnfnnflnfnfanflnnf"].map fun w => wayOf w.toList

def allocUb (G : PForm) (first : Form) (g : Way) : Bool :=
  goes allocAx look3 60 [.any] (allocV.put (.alt typedF .eps) G) g &&
    sameForm (prune ((allocV.put (.alt typedF .eps) G).along g).erase) (.seqs [.word Tag.KW_ALLOCATE, .word Tag.TK_PARENL, first])

theorem alloc_ub_bare : ((Std.allocateBefore .empty).zip allocWays).all (fun q => allocUb .eps q.1 q.2) = true := by decide +kernel
theorem alloc_ub_intrinsic : ((Std.allocateBefore (.seqs [Std.intrinsicTypeSpec, Std.dcolon])).zip allocWays).all
    (fun q => allocUb (.seq intrinsicF dcolonF) q.1 q.2) = true := by decide +kernel
theorem alloc_ub_derived : ((Std.allocateBefore (.seqs [Std.derivedTypeSpec, Std.dcolon])).zip allocWays).all
    (fun q => allocUb (.seq derivedF dcolonF) q.1 q.2) = true := by decide +kernel

/-- Parsing an allocate statement with `stat=` or `errmsg=` is undefined: `allocate(a(n), stat=i)`,
`allocate(real :: a(n), source=b, errmsg=c)` and so on. -/
theorem C79_violation_allocate (x : Exts) (hx : GoodExts x) (hf : x.Forward) (s : Strm) (hs : WholeStmt s) (hn : NoImages s.all) :
    (∀ first ∈ Std.allocateBefore .empty, Begins (.word Tag.KW_ALLOCATE) first (restOf s) → (∀ a ∈ restOf s, a.token ≠ Tag.TK_DBL_COLON) →
      DispatchReturns x Tag.SG_ALLOCATE_STMT s (.error .ub)) ∧
    (∀ first ∈ Std.allocateBefore (.seqs [Std.intrinsicTypeSpec, Std.dcolon]), Begins (.word Tag.KW_ALLOCATE) first (restOf s) →
      DispatchReturns x Tag.SG_ALLOCATE_STMT s (.error .ub)) ∧
    (∀ first ∈ Std.allocateBefore (.seqs [Std.derivedTypeSpec, Std.dcolon]), Begins (.word Tag.KW_ALLOCATE) first (restOf s) →
      (∀ a ∈ restOf s, a.token ∉ Std.intrinsicTypeNames) → DispatchReturns x Tag.SG_ALLOCATE_STMT s (.error .ub)) := by
  have hr : dispatchTable.find? (fun q => q.1 == Tag.SG_ALLOCATE_STMT) = some (Tag.SG_ALLOCATE_STMT, .allocate_stmt) := by decide +kernel
  refine ⟨fun first hfst h ht => ?_, fun first hfst h => ?_, fun first hfst h ht => ?_⟩
  · obtain ⟨g, hg⟩ := zip_all (by decide) alloc_ub_bare first hfst
    rw [allocUb, Bool.and_eq_true] at hg
    exact var_ub_without allocAx_sound hx hf hr (by decide) allocV_eq typedF Tag.TK_DBL_COLON typedF_has g hg.1 hg.2 hs hn ht h
  · obtain ⟨g, hg⟩ := zip_all (by decide) alloc_ub_intrinsic first hfst
    rw [allocUb, Bool.and_eq_true] at hg
    exact var_ub_part allocAx_sound hx hf hr (by decide) allocV_eq typedF (.seq intrinsicF dcolonF) (ex := [])
      (fun ts r _ h => first_run ts r h) g hg.1 hg.2 hs hn (fun _ _ => by simp) h
  · obtain ⟨g, hg⟩ := zip_all (by decide) alloc_ub_derived first hfst
    rw [allocUb, Bool.and_eq_true] at hg
    exact var_ub_part allocAx_sound hx hf hr (by decide) allocV_eq typedF (.seq derivedF dcolonF) (ex := Std.intrinsicTypeNames)
      (fun ts r ha h => second_run intrinsic_starts ts r ha h) g hg.1 hg.2 hs hn ht h

/-! ### Examples -/

theorem plainOf {t : Int} (h : t ≠ Tag.TK_PARENL ∧ t ≠ Tag.TK_PARENR ∧ t ≠ Tag.TK_BRACKETL ∧ t ≠ Tag.TK_BRACKETR) : Plain t := h

/-- `deallocate(a % b, c)`: C79 says that it has the form of the standard. -/
example : Std.deallocate.Is (restOf (lineOf [Tag.KW_DEALLOCATE, Tag.TK_PARENL, Tag.TK_NAME, Tag.TK_PERCENT, Tag.TK_NAME, Tag.TK_COMMA, Tag.TK_NAME,
    Tag.TK_PARENR])) := by
  have hw : WholeStmt (lineOf [Tag.KW_DEALLOCATE, Tag.TK_PARENL, Tag.TK_NAME, Tag.TK_PERCENT, Tag.TK_NAME, Tag.TK_COMMA, Tag.TK_NAME,
      Tag.TK_PARENR]) := by
    refine wholeStmt_of (goodTags_of (by decide +kernel)) (.plain (plainOf (by decide)) ?_)
    exact .paren (a := [Tag.TK_NAME, Tag.TK_PERCENT, Tag.TK_NAME, Tag.TK_COMMA, Tag.TK_NAME]) (b := [])
      (.plain (plainOf (by decide)) <| .plain (plainOf (by decide)) <| .plain (plainOf (by decide)) <| .plain (plainOf (by decide)) <|
        .plain (plainOf (by decide)) .nil) .nil
  exact (C79_without_variables noExts goodExts_none forward_none _ hw (noImages_of (by decide +kernel))
    (Tag.SG_DEALLOCATE_STMT, Std.deallocate) (by simp [Std.withoutVariables])).mp
    (recognised_of (r := .deallocate_stmt) (by decide +kernel) (by decide +kernel))

/-- `lock(a)`, for which C79 finds undefined behaviour. -/
example : DispatchReturns noExts Tag.SG_LOCK_STMT (lineOf [Tag.KW_LOCK, Tag.TK_PARENL, Tag.TK_NAME, Tag.TK_PARENR]) (.error .ub) := by
  refine C79_violation_variable noExts goodExts_none forward_none _ ?_ (noImages_of (by decide +kernel))
    (Tag.SG_LOCK_STMT, .word Tag.KW_LOCK, .empty) (by simp [Std.beforeVariables]) ?_
  · refine wholeStmt_of (goodTags_of (by decide +kernel)) (.plain (plainOf (by decide)) ?_)
    exact .paren (a := [Tag.TK_NAME]) (b := []) (.plain (plainOf (by decide)) .nil) .nil
  · exact ⟨[tokOf Tag.KW_LOCK], tokOf Tag.TK_PARENL, [], [tokOf Tag.TK_NAME], tokOf Tag.TK_PARENR, rfl, ⟨_, rfl, rfl⟩, rfl, rfl, rfl,
      .plain (plainOf (by decide)) .nil⟩

/-- `associate (a =>)`, likewise. -/
example : WholeStmt (lineOf [Tag.KW_ASSOCIATE, Tag.TK_PARENL, Tag.TK_NAME, Tag.TK_ARROW, Tag.TK_PARENR]) ∧
    DispatchReturns noExts Tag.SG_ASSOCIATE_STMT (lineOf [Tag.KW_ASSOCIATE, Tag.TK_PARENL, Tag.TK_NAME, Tag.TK_ARROW, Tag.TK_PARENR])
      (.error .ub) := by
  have hw : WholeStmt (lineOf [Tag.KW_ASSOCIATE, Tag.TK_PARENL, Tag.TK_NAME, Tag.TK_ARROW, Tag.TK_PARENR]) := by
    refine wholeStmt_of (goodTags_of (by decide +kernel)) (.plain (plainOf (by decide)) ?_)
    exact .paren (a := [Tag.TK_NAME, Tag.TK_ARROW]) (b := []) (.plain (plainOf (by decide)) <| .plain (plainOf (by decide)) .nil) .nil
  refine ⟨hw, ?_⟩
  rw [dispatch_iff, show dispatchTable.find? (fun q => q.1 == Tag.SG_ASSOCIATE_STMT) = some (Tag.SG_ASSOCIATE_STMT, .associate_stmt) by decide +kernel]
  exact returns_ub 40 (by decide +kernel)

/-- `allocate(real :: a(n))`: C79 says that it has the form of the standard. -/
example : Std.allocate.Is (restOf (lineOf [Tag.KW_ALLOCATE, Tag.TK_PARENL, Tag.KW_REAL, Tag.TK_DBL_COLON, Tag.TK_NAME, Tag.TK_PARENL, Tag.TK_NAME,
    Tag.TK_PARENR, Tag.TK_PARENR])) := by
  refine (C79_allocate_partial noExts goodExts_none forward_none _ ?_ (noImages_of (by decide +kernel))).1
    (recognised_of (r := .allocate_stmt) (by decide +kernel) (by decide +kernel))
  refine wholeStmt_of (goodTags_of (by decide +kernel)) (.plain (plainOf (by decide)) ?_)
  exact .paren (a := [Tag.KW_REAL, Tag.TK_DBL_COLON, Tag.TK_NAME, Tag.TK_PARENL, Tag.TK_NAME, Tag.TK_PARENR]) (b := [])
    (.plain (plainOf (by decide)) <| .plain (plainOf (by decide)) <| .plain (plainOf (by decide)) <|
      .paren (a := [Tag.TK_NAME]) (b := []) (.plain (plainOf (by decide)) .nil) .nil) .nil

/-- `allocate(a, stat=i)` has the beginning that C79 asks for, and parsing it is undefined. -/
example : Begins (.word Tag.KW_ALLOCATE) (.seqs [.empty, .list Std.allocation, Std.comma, .word Tag.KW_STAT, Std.equals])
      (restOf (lineOf [Tag.KW_ALLOCATE, Tag.TK_PARENL, Tag.TK_NAME, Tag.TK_COMMA, Tag.KW_STAT, Tag.TK_EQUAL, Tag.TK_NAME, Tag.TK_PARENR])) := by
  have ho : Std.allocation.Is [tokOf Tag.TK_NAME] :=
    ⟨[tokOf Tag.TK_NAME], [], rfl, .inr (.inl ⟨_, rfl, .inl rfl⟩), [], [], rfl, .inr rfl, [], [], rfl, .inr rfl, rfl⟩
  refine ⟨[tokOf Tag.KW_ALLOCATE], tokOf Tag.TK_PARENL, [tokOf Tag.TK_NAME, tokOf Tag.TK_COMMA, tokOf Tag.KW_STAT, tokOf Tag.TK_EQUAL],
    [tokOf Tag.TK_NAME], tokOf Tag.TK_PARENR, rfl, ⟨_, rfl, rfl⟩, ?_, rfl, rfl, ?_⟩
  · exact ⟨[], _, rfl, rfl, [tokOf Tag.TK_NAME], _, rfl, ⟨_, [], rfl, ho, [], rfl, by simp⟩, [tokOf Tag.TK_COMMA], _, rfl, ⟨_, rfl, rfl⟩,
      [tokOf Tag.KW_STAT], _, rfl, ⟨_, rfl, rfl⟩, [tokOf Tag.TK_EQUAL], _, rfl, ⟨_, rfl, rfl⟩, rfl⟩
  · exact .plain (plainOf (by decide)) <| .plain (plainOf (by decide)) <| .plain (plainOf (by decide)) <| .plain (plainOf (by decide)) <|
      .plain (plainOf (by decide)) .nil

/-- `select type (a => b)`: C79 says that it has the form of the standard. -/
example : Std.selectType.Is (restOf (lineOf [Tag.KW_SELECT, Tag.KW_TYPE, Tag.TK_PARENL, Tag.TK_NAME, Tag.TK_ARROW, Tag.TK_NAME, Tag.TK_PARENR])) := by
  refine (C79_select_type_partial noExts goodExts_none forward_none _ ?_ (noImages_of (by decide +kernel))).1
    (recognised_of (r := .select_type_stmt) (by decide +kernel) (by decide +kernel))
  refine wholeStmt_of (goodTags_of (by decide +kernel)) (.plain (plainOf (by decide)) <| .plain (plainOf (by decide)) ?_)
  exact .paren (a := [Tag.TK_NAME, Tag.TK_ARROW, Tag.TK_NAME]) (b := [])
    (.plain (plainOf (by decide)) <| .plain (plainOf (by decide)) <| .plain (plainOf (by decide)) .nil) .nil

end SP
end FLPR
