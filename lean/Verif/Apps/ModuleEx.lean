import Verif.Apps.ModuleProps
import Verif.Procedure.EndEx
/-! # C73: examples -/

namespace FLPR
namespace Apps
open PP Reg Proc Spec
open SP (SNode R Exts Strm)

/-- A test that parentheses and brackets are nested; `cs` are the ones to come. -/
def nestRun : List Int → List Int → Bool
  | [], cs => cs.isEmpty
  | t :: ts, cs =>
    if t = Tag.TK_PARENL then nestRun ts (Tag.TK_PARENR :: cs)
    else if t = Tag.TK_BRACKETL then nestRun ts (Tag.TK_BRACKETR :: cs)
    else if t = Tag.TK_PARENR ∨ t = Tag.TK_BRACKETR then (match cs with
      | [] => false
      | c :: cs => decide (t = c) && nestRun ts cs)
    else nestRun ts cs

theorem nestRun_wn : ∀ (n : Nat) (ts cs : List Int), ts.length ≤ n → nestRun ts cs = true →
    match cs with
    | [] => WellNested ts
    | c :: cs => ∃ a b, ts = a ++ c :: b ∧ WellNested a ∧ nestRun b cs = true := by
  intro n
  induction n with
  | zero =>
    intro ts cs hl h
    cases ts with
    | cons t ts => simp at hl
    | nil =>
      cases cs with
      | nil => exact .nil
      | cons c cs => cases h
  | succ n ih =>
    intro ts cs hl h
    cases ts with
    | nil =>
      cases cs with
      | nil => exact .nil
      | cons c cs => cases h
    | cons t ts =>
      have hl : ts.length ≤ n := by simpa using hl
      rw [nestRun.eq_def] at h
      dsimp only at h
      split at h
      · rename_i ht
        obtain ⟨a, b, h1, h2, h3⟩ := ih ts _ hl h
        have hb := ih b cs (by rw [h1] at hl; simp at hl; omega) h3
        rw [ht, h1]
        cases cs with
        | nil => exact .paren h2 hb
        | cons c cs =>
          obtain ⟨a', b', h4, h5, h6⟩ := hb
          exact ⟨Tag.TK_PARENL :: (a ++ Tag.TK_PARENR :: a'), b', by rw [h4]; simp, .paren h2 h5, h6⟩
      · split at h
        · rename_i ht
          obtain ⟨a, b, h1, h2, h3⟩ := ih ts _ hl h
          have hb := ih b cs (by rw [h1] at hl; simp at hl; omega) h3
          rw [ht, h1]
          cases cs with
          | nil => exact .bracket h2 hb
          | cons c cs =>
            obtain ⟨a', b', h4, h5, h6⟩ := hb
            exact ⟨Tag.TK_BRACKETL :: (a ++ Tag.TK_BRACKETR :: a'), b', by rw [h4]; simp, .bracket h2 h5, h6⟩
        · split at h
          · cases cs with
            | nil => cases h
            | cons c cs =>
              simp only [Bool.and_eq_true, decide_eq_true_eq] at h
              exact ⟨[], ts, by rw [h.1]; rfl, .nil, h.2⟩
          · rename_i h1 h2 h3
            have hp : Plain t := ⟨h1, fun e => h3 (.inl e), h2, fun e => h3 (.inr e)⟩
            have hb := ih ts cs hl h
            cases cs with
            | nil => exact .plain hp hb
            | cons c cs =>
              obtain ⟨a, b, h4, h5, h6⟩ := hb
              exact ⟨t :: a, b, by rw [h4]; rfl, .plain hp h5, h6⟩

/-- A test of statements. -/
def nestOk (s : Strm) : Bool :=
  decide (s.lo ≤ s.pos) && decide (s.pos ≤ s.hi) && decide (s.hi ≤ s.all.length) &&
  (tagsOf s).all (fun t => (match Registry.isName t with | .ok _ => true | _ => false) && t != Tag.BAD && t != Tag.HOIST) &&
  nestRun (tokSlice (tagsOf s) s.lo s.hi) []

theorem good_of_nest {s : Strm} (h : nestOk s = true) : GoodStmt s := by
  rw [nestOk] at h
  simp only [Bool.and_eq_true, decide_eq_true_eq] at h
  obtain ⟨⟨⟨⟨a, b⟩, c⟩, d⟩, e⟩ := h
  exact ⟨a, b, c, SP.goodTags_of d, s.lo, Nat.le_refl _, nestRun_wn _ _ [] (Nat.le_refl _) e⟩

/-- A test that a file has a subroutine as the theorems want it, and `q` of what is made of it. -/
def freshOk (fl : LFile) (q : POut → PNode → PNode → Procd → Bool) : Bool :=
  (viewOf fl).stmts.all (fun st => nestOk st.strm) &&
  outIs (run noExts 40 .program (viewOf fl)) (fun o => o.ok && o.tree.any (fun t => (nodesOf t).any (fun n => n.tag == Tag.PG_SUBROUTINE_SUBPROGRAM &&
    decide ((regionNodes n).flatMap stmtsUnder).Nodup && decide (2 ≤ (stmtsUnder n).length) &&
    match make with
    | .ok p0 => (match ingest p0 n with
      | .ok (true, p) => q o t n p
      | _ => false)
    | _ => false)))

theorem of_freshOk {fl : LFile} {q : POut → PNode → PNode → Procd → Bool} (h : freshOk fl q = true) :
    ∃ o t n p, OfFresh (viewOf fl) o t n p ∧ q o t n p = true := by
  rw [freshOk, Bool.and_eq_true, List.all_eq_true] at h
  obtain ⟨h3, h4⟩ := h
  obtain ⟨o, h5, h6⟩ := returns_of 40 h4
  simp only [Bool.and_eq_true, beq_iff_eq, Option.any_eq_true, List.any_eq_true, decide_eq_true_eq] at h6
  obtain ⟨h6, t, h7, n, h8, ⟨⟨h9, h10⟩, h11⟩, h12⟩ := h6
  have hp : n.tag ∈ procTags := by rw [h9]; decide
  obtain ⟨p0, p, g1, g2, g3⟩ := (C41_parsed_partial noExts SP.forward_none needToken_none .program _ (viewOf_full fl) o h5 h6 t h7 n h8 hp).2
    h10 (.inr h11)
  rw [g1] at h12
  simp only [g2] at h12
  have hg : ∀ (j : Nat) (st : LStmt), (viewOf fl).stmts[j]? = some st → GoodStmt st.strm :=
    fun j st hst => good_of_nest (h3 st (List.mem_of_getElem? hst))
  exact ⟨o, t, n, p, ⟨⟨SP.forward_none, needToken_none, viewOf_full fl, ⟨_, h5⟩, h6, ⟨t, h7, h8⟩, hp, ⟨p0, g2⟩, g3, fun _ _ j st _ hst => hg j st hst⟩,
    h7, ⟨p0, g1, g2⟩, rfl, hg⟩, h12⟩

def isTrue : Res Bool → Bool
  | .ok b => b
  | _ => false

theorem of_isTrue {r : Res Bool} (h : isTrue r = true) : r = .ok true := by
  cases r with
  | error e => cases h
  | ok b => exact congrArg Except.ok h

/-- C73 applies to a subroutine that calls a procedure that it gets from the module, written in another case. -/
example : ∃ fl o t n p, fileOf ["subroutine s", "use :: Lib", "x=1", "call a%FOO", "end"] = .ok (some fl) ∧ OfFresh (viewOf fl) o t n p ∧
    CallsOwn (viewOf fl) t n ["foo".toList] ∧ UsesModule (viewOf fl) n "lib".toList ∧
    (ModuleAction.make "LIB".toList ["Foo".toList]).run (fun _ => .error .exc) o.s fl n false = .ok (true, fl) := by
  obtain ⟨fl, h1, h2, _⟩ := file_of (raws := ["subroutine s", "use :: Lib", "x=1", "call a%FOO", "end"])
    (q := fun fl => freshOk fl (fun o t n _ => isTrue (anyCall o.s ["foo".toList] (regionStmts n 5)) &&
      (regionStmts n 5).all (fun j => decide ((j, Tag.SG_ACTION_STMT) ∈ ownLeaves t)) &&
      isTrue (anyUse o.s "lib".toList false (regionStmts n 1)))) (by decide +kernel)
  obtain ⟨o, t, n, p, h, h3⟩ := of_freshOk h2
  simp only [Bool.and_eq_true, List.all_eq_true, decide_eq_true_eq] at h3
  obtain ⟨⟨k1, k2⟩, k3⟩ := h3
  have hc : CallsOwn (viewOf fl) t n ["foo".toList] := by
    obtain ⟨b, b1, b2, _⟩ := calls_found h ["foo".toList]
    rw [of_isTrue k1] at b1
    injection b1 with b1
    obtain ⟨j, hj, st, c1, c2⟩ := b2 b1.symm
    exact ⟨j, hj, st, c1, c2, k2 j hj⟩
  have hu : UsesModule (viewOf fl) n "lib".toList := by
    obtain ⟨b, b1, b2⟩ := uses_found h "lib".toList
    rw [of_isTrue k3] at b1
    injection b1 with b1
    exact b2.mp b1.symm
  exact ⟨fl, o, t, n, p, h1, h, hc, hu, C73_used_partial _ o t n p h _ "LIB".toList ["Foo".toList] fl hc hu⟩

/-- C73 applies to a subroutine that calls another procedure. -/
example : ∃ fl o t n p, fileOf ["subroutine s", "use :: Lib", "x=1", "call foo%bar", "end"] = .ok (some fl) ∧ OfFresh (viewOf fl) o t n p ∧
    ¬ CallsIn (viewOf fl) n ["foo".toList] ∧ CallsIn (viewOf fl) n ["bar".toList] ∧
    (ModuleAction.make "LIB".toList ["Foo".toList]).run (fun _ => .error .exc) o.s fl n false = .ok (false, fl) := by
  obtain ⟨fl, h1, h2, _⟩ := file_of (raws := ["subroutine s", "use :: Lib", "x=1", "call foo%bar", "end"])
    (q := fun fl => freshOk fl (fun o t n _ => isTrue (anyCall o.s ["bar".toList] (regionStmts n 5)) &&
      (regionStmts n 5).all (fun j => decide ((j, Tag.SG_ACTION_STMT) ∈ ownLeaves t)) &&
      isTrue ((anyCall o.s ["foo".toList] (regionStmts n 5)).map (!·)))) (by decide +kernel)
  obtain ⟨o, t, n, p, h, h3⟩ := of_freshOk h2
  simp only [Bool.and_eq_true, List.all_eq_true, decide_eq_true_eq] at h3
  obtain ⟨⟨k1, k2⟩, k3⟩ := h3
  have hb : CallsIn (viewOf fl) n ["bar".toList] := by
    obtain ⟨b, b1, b2, _⟩ := calls_found h ["bar".toList]
    rw [of_isTrue k1] at b1
    injection b1 with b1
    exact b2 b1.symm
  have hc : ¬ CallsIn (viewOf fl) n ["foo".toList] := by
    rintro ⟨j, hj, st, c1, c2⟩
    obtain ⟨b, b1, _, b3⟩ := calls_found h ["foo".toList]
    have := b3 ⟨j, hj, st, c1, c2, k2 j hj⟩
    subst this
    rw [b1] at k3
    cases k3
  exact ⟨fl, o, t, n, p, h1, h, hc, hb, C73_none _ o t n p h _ "LIB".toList ["Foo".toList] fl hc⟩

/-- `C73_violation_use` applies to a subroutine without use statements. -/
example : ∃ fl o t n p, fileOf ["subroutine s", "x=1", "call foo", "end"] = .ok (some fl) ∧ OfFresh (viewOf fl) o t n p ∧
    CallsOwn (viewOf fl) t n ["foo".toList] ∧ ¬ UsesModule (viewOf fl) n "lib".toList ∧
    ∀ mk v, (ModuleAction.make "LIB".toList ["Foo".toList]).run mk o.s fl n false ≠ .ok v := by
  obtain ⟨fl, h1, h2, _⟩ := file_of (raws := ["subroutine s", "x=1", "call foo", "end"])
    (q := fun fl => freshOk fl (fun o t n _ => isTrue (anyCall o.s ["foo".toList] (regionStmts n 5)) &&
      (regionStmts n 5).all (fun j => decide ((j, Tag.SG_ACTION_STMT) ∈ ownLeaves t)) &&
      (regionStmts n 1).isEmpty)) (by decide +kernel)
  obtain ⟨o, t, n, p, h, h3⟩ := of_freshOk h2
  simp only [Bool.and_eq_true, List.all_eq_true, decide_eq_true_eq, List.isEmpty_iff] at h3
  obtain ⟨⟨k1, k2⟩, k3⟩ := h3
  have hc : CallsOwn (viewOf fl) t n ["foo".toList] := by
    obtain ⟨b, b1, b2, _⟩ := calls_found h ["foo".toList]
    rw [of_isTrue k1] at b1
    injection b1 with b1
    obtain ⟨j, hj, st, c1, c2⟩ := b2 b1.symm
    exact ⟨j, hj, st, c1, c2, k2 j hj⟩
  have hu : ¬ UsesModule (viewOf fl) n "lib".toList := by
    rintro ⟨j, hj, _⟩
    rw [k3] at hj
    cases hj
  exact ⟨fl, o, t, n, p, h1, h, hc, hu, fun mk v => C73_violation_use _ o t n p h mk "LIB".toList ["Foo".toList] fl hc hu v⟩

/-- `if (a) call a(a)`. -/
def ifCall : List Int := [Tag.KW_IF, Tag.TK_PARENL, Tag.TK_NAME, Tag.TK_PARENR, Tag.KW_CALL, Tag.TK_NAME, Tag.TK_PARENL, Tag.TK_NAME, Tag.TK_PARENR]

theorem ifCall_good : GoodStmt (SP.lineOf ifCall) := by
  refine SP.good_of (SP.goodTags_of (by decide +kernel)) ?_
  refine .plain ⟨by decide, by decide, by decide, by decide⟩ ?_
  refine .paren (a := [Tag.TK_NAME]) (b := [Tag.KW_CALL, Tag.TK_NAME, Tag.TK_PARENL, Tag.TK_NAME, Tag.TK_PARENR])
    (.plain ⟨by decide, by decide, by decide, by decide⟩ .nil) ?_
  refine .plain ⟨by decide, by decide, by decide, by decide⟩ <| .plain ⟨by decide, by decide, by decide, by decide⟩ ?_
  exact .paren (a := [Tag.TK_NAME]) (b := []) (.plain ⟨by decide, by decide, by decide, by decide⟩ .nil) .nil

/-- C73 applies to a call in an if statement. -/
example : ∃ t q u names, Returns noExts .action_stmt (SP.lineOf ifCall) (.ok (some t, q)) ∧ treeTag (some t) = .ok u ∧
    u = Tag.SG_IF_STMT ∧ Calls (SP.lineOf ifCall) names ∧ callNamed (SP.lineOf ifCall).all names u t = .ok true := by
  obtain ⟨t, s', h1, h2⟩ := SP.returns_of_holds (x := noExts) (r := .action_stmt) (s := SP.lineOf ifCall)
    (q := fun t _ => match t with
      | some t => (match treeTag (some t) with
        | .ok u => u == Tag.SG_IF_STMT && isTrue (callNamed (SP.lineOf ifCall).all [(SP.tokOf Tag.TK_NAME).lowerText.1] u t)
        | _ => false)
      | none => false) 60 (by decide +kernel)
  cases t with
  | none => cases h2
  | some t =>
    simp only at h2
    cases hu : treeTag (some t) with
    | error e => rw [hu] at h2; cases h2
    | ok u =>
      rw [hu] at h2
      simp only [Bool.and_eq_true, beq_iff_eq] at h2
      obtain ⟨b, b1, b2⟩ := C73_call _ _ t u [(SP.tokOf Tag.TK_NAME).lowerText.1] ifCall_good h1 hu
      have h3 := of_isTrue h2.2
      rw [h3] at b1
      injection b1 with b1
      exact ⟨t, s', u, _, h1, hu, h2.1, b2.mp b1.symm, h3⟩

end Apps
end FLPR
