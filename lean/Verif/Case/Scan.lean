import Verif.Case.Lines
/-!
# Case of letters: the scan of a file into groups of lines
-/

namespace FLPR
open Spec SP

/-- Failing in the same way, both giving up, or both giving related lists. -/
def CaseFiles (o o' : Option (List FileLine)) : Prop :=
  match o, o' with
  | none, none => True
  | some l, some l' => List.Forall₂ CaseLine l l'
  | _, _ => False

theorem analyzeAllFree_case : ∀ (raws raws' : List Str), List.Forall₂ Respelled raws raws' → ∀ (ln : Nat) (pd : Char) (pc lit : Bool),
    BothWays CaseFiles (analyzeAllFree ln pd pc lit raws) (analyzeAllFree ln pd pc lit raws')
  | _, _, .nil, ln, pd, pc, lit => by
    rw [analyzeAllFree]
    exact BW.ok (show CaseFiles (some []) (some []) from .nil)
  | _, _, .cons (a := r) (b := r') (l₁ := rs) (l₂ := rs') hr hrs, ln, pd, pc, lit => by
    rw [analyzeAllFree, analyzeAllFree]
    have h := analyzeFree_case ln hr pd pc lit
    revert h
    cases analyzeFree ln r pd pc lit with
    | error e =>
      cases analyzeFree ln r' pd pc lit with
      | ok y => intro h; exact h.elim
      | error e' =>
        intro h
        have : e' = e := h
        subst this
        cases e' with
        | exc => exact BW.ok (show CaseFiles none none from trivial)
        | assertion => exact BW.err _
        | ub => exact BW.err _
    | ok x =>
      cases analyzeFree ln r' pd pc lit with
      | error e' => intro h; exact h.elim
      | ok y =>
        intro h
        have h : CaseLine x.1 y.1 ∧ y.2 = x.2 := h
        obtain ⟨f, l⟩ := x
        obtain ⟨f', l'⟩ := y
        obtain ⟨h1, h2⟩ := h
        dsimp only at h1 h2
        subst h2
        show BothWays CaseFiles (analyzeAllFree (ln + 1) f.open_delim f.bits.continued l' rs >>= fun o => .ok (o.map (f :: ·)))
          (analyzeAllFree (ln + 1) f'.open_delim f'.bits.continued l' rs' >>= fun o => .ok (o.map (f' :: ·)))
        rw [h1.delim, h1.bits]
        refine BW.bind (analyzeAllFree_case rs rs' hrs (ln + 1) _ _ _) (fun o o' ho => BW.ok ?_)
        cases o with
        | none =>
          cases o' with
          | none => trivial
          | some _ => exact ho.elim
        | some fs =>
          cases o' with
          | none => exact ho.elim
          | some fs' => exact .cons h1 ho

theorem analyzeAllFixed_case (lc : Int) : ∀ (raws raws' : List Str), List.Forall₂ Respelled raws raws' → ∀ (ln : Nat) (pd : Char),
    BothWays CaseFiles (analyzeAllFixed lc ln pd raws) (analyzeAllFixed lc ln pd raws')
  | _, _, .nil, ln, pd => by
    rw [analyzeAllFixed]
    exact BW.ok (show CaseFiles (some []) (some []) from .nil)
  | _, _, .cons (a := r) (b := r') (l₁ := rs) (l₂ := rs') hr hrs, ln, pd => by
    rw [analyzeAllFixed, analyzeAllFixed]
    have h := analyzeFixed_case ln hr pd lc
    revert h
    cases analyzeFixed ln r pd lc with
    | error e =>
      cases analyzeFixed ln r' pd lc with
      | ok y => intro h; exact h.elim
      | error e' =>
        intro h
        have : e' = e := h
        subst this
        cases e' with
        | exc => exact BW.ok (show CaseFiles none none from trivial)
        | assertion => exact BW.err _
        | ub => exact BW.err _
    | ok f =>
      cases analyzeFixed ln r' pd lc with
      | error e' => intro h; exact h.elim
      | ok f' =>
        intro h
        have h1 : CaseLine f f' := h
        show BothWays CaseFiles (analyzeAllFixed lc (ln + 1) f.open_delim rs >>= fun o => .ok (o.map (f :: ·)))
          (analyzeAllFixed lc (ln + 1) f'.open_delim rs' >>= fun o => .ok (o.map (f' :: ·)))
        rw [h1.delim]
        refine BW.bind (analyzeAllFixed_case lc rs rs' hrs (ln + 1) _) (fun o o' ho => BW.ok ?_)
        cases o with
        | none =>
          cases o' with
          | none => trivial
          | some _ => exact ho.elim
        | some fs =>
          cases o' with
          | none => exact ho.elim
          | some fs' => exact .cons h1 ho

theorem caseLine_trivial {f f' : FileLine} (h : CaseLine f f') : f'.isTrivial = f.isTrivial := by
  unfold FileLine.isTrivial
  rw [h.bits]

theorem caseLine_fortran {f f' : FileLine} (h : CaseLine f f') : f'.isFortran = f.isFortran := by
  unfold FileLine.isFortran
  rw [caseLine_trivial h, h.bits]

theorem caseLine_pp {f f' : FileLine} (h : CaseLine f f') : CaseLine f.makePreprocessor f'.makePreprocessor := by
  refine ⟨h.linenum, ?_, h.delim, ?_, sl_refl _, sl_refl _, sl_refl _, sl_refl _⟩
  · unfold FileLine.makePreprocessor
    rw [h.bits]
  · exact sl_append h.left_txt (sl_append (sl_append (sl_append h.left_space h.main_txt) h.right_space) h.right_txt)

theorem lastNonBlank_case {a b : Str} (h : SameLetters a b) : CharEq (lastNonBlankChar a) (lastNonBlankChar b) := by
  unfold lastNonBlankChar
  rw [lastNotOf_case blanks_noLetter h]
  split
  · exact rfl
  · exact sl_getD h _

theorem absorb_case : ∀ {fs fs' : List FileLine}, List.Forall₂ CaseLine fs fs' → ∀ {p p' : FileLine}, CaseLine p p' →
    List.Forall₂ CaseLine (absorb p fs).1 (absorb p' fs').1 ∧ List.Forall₂ CaseLine (absorb p fs).2 (absorb p' fs').2
  | _, _, .nil, p, p', h => by
    rw [absorb, absorb]
    exact ⟨.nil, .nil⟩
  | _, _, .cons hf hfs, p, p', h => by
    rw [absorb, absorb]
    simp only [charEq_iff (lastNonBlank_case h.left_txt) (d := '\\') (.inr (.inl (by decide)))]
    split
    · obtain ⟨h1, h2⟩ := absorb_case hfs (caseLine_pp hf)
      exact ⟨.cons (caseLine_pp hf) h1, h2⟩
    · exact ⟨.nil, .cons hf hfs⟩

theorem forall2_takeWhile {Q : FileLine → FileLine → Prop} {p : FileLine → Bool} (hp : ∀ f f', Q f f' → p f' = p f) :
    ∀ {l l' : List FileLine}, List.Forall₂ Q l l' →
    List.Forall₂ Q (l.takeWhile p) (l'.takeWhile p) ∧ List.Forall₂ Q (l.dropWhile p) (l'.dropWhile p)
  | _, _, .nil => ⟨.nil, .nil⟩
  | _, _, .cons hf hfs => by
    rw [List.takeWhile_cons, List.takeWhile_cons, List.dropWhile_cons, List.dropWhile_cons, hp _ _ hf]
    split
    · exact ⟨.cons hf (forall2_takeWhile hp hfs).1, (forall2_takeWhile hp hfs).2⟩
    · exact ⟨.nil, .cons hf hfs⟩

theorem forall2_findIdx {Q : FileLine → FileLine → Prop} {p : FileLine → Bool} (hp : ∀ f f', Q f f' → p f' = p f) :
    ∀ {l l' : List FileLine}, List.Forall₂ Q l l' → l'.findIdx? p = l.findIdx? p
  | _, _, .nil => rfl
  | _, _, .cons hf hfs => by
    rw [List.findIdx?_cons, List.findIdx?_cons, hp _ _ hf, forall2_findIdx hp hfs]

theorem freeStmtLen_case {l l' : List FileLine} (h : List.Forall₂ CaseLine l l') : freeStmtLen l' = freeStmtLen l := by
  unfold freeStmtLen
  rw [forall2_findIdx (fun f f' hf => by rw [caseLine_trivial hf, hf.bits]) h]

theorem lastCode_case : ∀ {l l' : List FileLine}, List.Forall₂ CaseLine l l' → ∀ (i k : Nat), lastCode i k l' = lastCode i k l
  | _, _, .nil, i, k => rfl
  | _, _, .cons hf hfs, i, k => by
    rw [lastCode, lastCode, hf.bits, caseLine_trivial hf, lastCode_case hfs, lastCode_case hfs]

/-- A group and the lines left, related. -/
def CaseNext (x y : Group × List FileLine) : Prop := CaseGroup x.1 y.1 ∧ List.Forall₂ CaseLine x.2 y.2

theorem ppCat_case {f f' : FileLine} (h : CaseLine f f') : ppCat f' = ppCat f := by
  unfold ppCat
  rw [h.bits]

theorem nextFree_case {f f' : FileLine} {fs fs' : List FileLine} (h : CaseLine f f') (hs : List.Forall₂ CaseLine fs fs') :
    BothWays CaseNext (nextFree f fs) (nextFree f' fs') := by
  unfold nextFree
  rw [caseLine_trivial h, h.bits, caseLine_fortran h]
  have ht := forall2_takeWhile (p := (·.isTrivial)) (fun _ _ hx => caseLine_trivial hx) (.cons h hs)
  have hl := forall2_takeWhile (p := (·.bits.flpr_lit)) (fun _ _ hx => by rw [hx.bits]) (.cons h hs)
  refine BW.ite (fun _ => BW.ok ⟨⟨rfl, rfl, ht.1⟩, ht.2⟩) (fun _ => ?_)
  refine BW.ite (fun _ => BW.ok ⟨⟨rfl, rfl, hl.1⟩, hl.2⟩) (fun _ => ?_)
  refine BW.ite (fun _ => BW.ite (fun _ => ?_) (fun _ => BW.err _)) (fun _ => ?_)
  · exact BW.ok ⟨⟨ppCat_case h, rfl, .cons h (absorb_case hs h).1⟩, (absorb_case hs h).2⟩
  · rw [freeStmtLen_case (.cons h hs)]
    exact BW.ok ⟨⟨rfl, rfl, List.forall₂_take _ (.cons h hs)⟩, List.forall₂_drop _ (.cons h hs)⟩

theorem nextFixed_case {f f' : FileLine} {fs fs' : List FileLine} (h : CaseLine f f') (hs : List.Forall₂ CaseLine fs fs') :
    BothWays CaseNext (nextFixed f fs) (nextFixed f' fs') := by
  unfold nextFixed
  rw [caseLine_trivial h, h.bits, caseLine_fortran h]
  have ht := forall2_takeWhile (p := (·.isTrivial)) (fun _ _ hx => caseLine_trivial hx) (.cons h hs)
  refine BW.ite (fun _ => BW.ok ⟨⟨rfl, rfl, ht.1⟩, ht.2⟩) (fun _ => ?_)
  refine BW.ite (fun _ => BW.ite (fun _ => ?_) (fun _ => BW.err _)) (fun _ => ?_)
  · exact BW.ok ⟨⟨ppCat_case h, rfl, .cons h (absorb_case hs h).1⟩, (absorb_case hs h).2⟩
  · rw [lastCode_case hs]
    exact BW.ok ⟨⟨rfl, rfl, List.forall₂_take _ (.cons h hs)⟩, List.forall₂_drop _ (.cons h hs)⟩

theorem groupLoop_case {next : FileLine → List FileLine → Res (Group × List FileLine)}
    (hn : ∀ {f f' : FileLine} {fs fs' : List FileLine}, CaseLine f f' → List.Forall₂ CaseLine fs fs' →
      BothWays CaseNext (next f fs) (next f' fs')) :
    ∀ (n : Nat) {l l' : List FileLine}, List.Forall₂ CaseLine l l' →
    BothWays (List.Forall₂ CaseGroup) (groupLoop next n l) (groupLoop next n l')
  | n, _, _, .nil => by
    rw [groupLoop.eq_def]
    exact BW.ok .nil
  | 0, _, _, .cons _ _ => BW.err _
  | n + 1, _, _, .cons hf hfs => by
    rw [groupLoop, groupLoop]
    refine BW.bind (hn hf hfs) ?_
    rintro ⟨g, rest⟩ ⟨g', rest'⟩ ⟨h1, h2⟩
    exact BW.bind (groupLoop_case hn n h2) (fun gs gs' hg => BW.ok (.cons h1 hg))

/-- Both giving up, or both giving related groups. -/
def CaseGroups (o o' : Option (List Group)) : Prop :=
  match o, o' with
  | none, none => True
  | some l, some l' => List.Forall₂ CaseGroup l l'
  | _, _ => False

theorem scanFree_case {raws raws' : List Str} (h : List.Forall₂ Respelled raws raws') :
    BothWays CaseGroups (scanFree raws) (scanFree raws') := by
  unfold scanFree
  refine BW.bind (analyzeAllFree_case raws raws' h 1 NUL false false) (fun o o' ho => ?_)
  cases o with
  | none =>
    cases o' with
    | none => exact BW.ok (show CaseGroups none none from trivial)
    | some _ => exact ho.elim
  | some fs =>
    cases o' with
    | none => exact ho.elim
    | some fs' =>
      have ho : List.Forall₂ CaseLine fs fs' := ho
      dsimp only
      rw [← ho.length_eq]
      exact BW.bind (groupLoop_case nextFree_case _ ho) (fun gs gs' hg => BW.ok hg)

theorem scanFixed_case {raws raws' : List Str} (h : List.Forall₂ Respelled raws raws') (lc : Int) :
    BothWays CaseGroups (scanFixed raws lc) (scanFixed raws' lc) := by
  unfold scanFixed
  refine BW.bind (analyzeAllFixed_case lc raws raws' h 1 NUL) (fun o o' ho => ?_)
  cases o with
  | none =>
    cases o' with
    | none => exact BW.ok (show CaseGroups none none from trivial)
    | some _ => exact ho.elim
  | some fs =>
    cases o' with
    | none => exact ho.elim
    | some fs' =>
      have ho : List.Forall₂ CaseLine fs fs' := ho
      dsimp only
      rw [← ho.length_eq]
      exact BW.bind (groupLoop_case nextFixed_case _ ho) (fun gs gs' hg => BW.ok hg)

end FLPR
