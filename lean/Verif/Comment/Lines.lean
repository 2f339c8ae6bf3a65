import Verif.Comment.Runs
import Verif.StmtParser.AlikeLemmas
/-!
# Comment lines: the analysis of the lines
-/

namespace FLPR
open Spec SP

/-! ### What analysed lines are -/

theorem freeLeft_kind {raw : Str} {pc : Bool} {ri : Nat} {c : Char} {r : Str × Bits × Nat × Nat} (h : freeLeft raw pc ri c = .ok r) :
    r.2.1 = { label := true } ∨ r.2.1 = { continuation := true } ∨ r.2.1 = {} := by
  unfold freeLeft at h
  rbind h with d hd
  split at h
  · rbind h with x hx; simp at h; subst h; exact .inl rfl
  · split at h
    · simp at h; subst h; exact .inr (.inl rfl)
    · simp at h; subst h; exact .inr (.inr rfl)

theorem freeBody_fortran {ln : Int} {raw : Str} {pd : Char} {pc : Bool} {ri : Nat} {c : Char} {f : FileLine}
    (h : analyzeFreeBody ln raw pd pc ri c = .ok f) : f.isFortran = true := by
  unfold analyzeFreeBody at h
  rbind h with ⟨lt, b, r1, ib⟩ h1
  rbind h with r2 h2
  rbind h with ⟨tb, od⟩ h3
  have hb := freeLeft_kind h1
  dsimp only at hb
  have key : ∀ b' : Bits, (b' = b ∨ b' = { b with continued := true }) → f.bits = b' → f.isFortran = true := by
    intro b' hb' hf
    unfold FileLine.isFortran FileLine.isTrivial
    rw [hf]
    rcases hb' with rfl | rfl <;> rcases hb with rfl | rfl | rfl <;> rfl
  cases tb with
  | none =>
    rbind h with m hm
    exact key b (.inl rfl) (mkFull_ok h).2.1
  | some t =>
    rbind h with m hm
    rbind h with r hr
    have hbits := (mkFull_ok h).2.1
    split at hbits
    · exact key _ (.inr rfl) hbits
    · exact key _ (.inl rfl) hbits

theorem free_kind {ln : Int} {raw : Str} {pd : Char} {pc lit lit' : Bool} {f : FileLine} (hd : validDelim pd = true)
    (h : analyzeFree ln raw pd pc lit = .ok (f, lit')) : FreeKind f ∧ (lit' = true → f.bits.flpr_lit = true) := by
  have hl := fun hf => analyzeFree_left hd h hf
  suffices hs : (f.isFortran = false → f.bits.label = false) ∧ (f.isTrivial = false → f.bits.continued = true → f.isFortran = true) ∧
      (f.isTrivial = false → f.bits.flpr_lit = false → f.isFortran = false → (f.bits.preprocessor || f.bits.flpr_pp || f.bits.incl) = true) ∧
      (lit' = true → f.bits.flpr_lit = true) from ⟨⟨fun hf => ⟨hl hf, hs.1 hf⟩, hs.2.1, hs.2.2.1⟩, hs.2.2.2⟩
  clear hl
  rcases analyzeFree_cases h with ⟨_, rfl, _⟩ | ⟨_, _, rfl, e⟩ | ⟨c0, rest, _, hb, h⟩
  · simp [mkLeft]
  · simp [mkLeft, e, FileLine.isTrivial]
  · rcases h with ⟨_, rfl, e⟩ | ⟨_, _, rfl, e⟩ | ⟨_, _, h⟩
    · simp [mkLeft, e]
    · simp [mkLeft, e]
    · rcases h with ⟨_, _, rfl, _⟩ | ⟨_, _, _, rfl, e⟩ | ⟨_, _, _, rfl, e⟩ | ⟨_, e, h⟩
      · simp [mkLeft]
      · simp [mkLeft, e]
      · simp [mkLeft, e, FileLine.isTrivial]
      · have hf := freeBody_fortran h
        simp [hf, e]

theorem free_delim {ln : Int} {raw : Str} {pd : Char} {pc lit lit' : Bool} {f : FileLine}
    (h : analyzeFree ln raw pd pc lit = .ok (f, lit')) : validDelim f.open_delim = true := (analyzeFree_misc h).2.2

/-! ### The line number -/

/-- The same line with another number. -/
def Renumbered (f f' : FileLine) : Prop := f' = { f with linenum := f'.linenum }

theorem renumbered_code {f f' : FileLine} (h : Renumbered f f') : CodeLine f f' := by
  have h : f' = { f with linenum := f'.linenum } := h
  have hr : f'.right_txt = f.right_txt := by rw [h]
  refine ⟨by rw [hr]; exact h, ?_⟩
  have : f'.print = f.print := by rw [h]; rfl
  rw [this]

theorem mkLeft_number (ln ln' : Int) (b : Bits) (t : Str) : Renumbered (mkLeft ln b t) (mkLeft ln' b t) := rfl

theorem mkFull_number (ln ln' : Int) (b : Bits) (lt ls mt rs rt : Str) (od : Char) :
    BothWays Renumbered (mkFull ln b lt ls mt rs rt od) (mkFull ln' b lt ls mt rs rt od) := by
  unfold mkFull
  exact BW.ite (fun _ => BW.ok rfl) (fun _ => BW.err _)

theorem freeBody_number (ln ln' : Int) (raw : Str) (pd : Char) (pc : Bool) (ri : Nat) (c : Char) :
    BothWays Renumbered (analyzeFreeBody ln raw pd pc ri c) (analyzeFreeBody ln' raw pd pc ri c) := by
  unfold analyzeFreeBody
  refine BW.bind (BW.same _) (fun a b hab => ?_)
  cases hab
  obtain ⟨lt, bits, r1, ib⟩ := a
  dsimp only
  refine BW.bind (BW.same _) (fun a b hab => ?_)
  cases hab
  refine BW.bind (BW.same _) (fun x b hab => ?_)
  cases hab
  obtain ⟨tb, od⟩ := x
  dsimp only
  cases tb with
  | none =>
    refine BW.bind (BW.same _) (fun a b hab => ?_)
    cases hab
    exact mkFull_number _ _ _ _ _ _ _ _ _
  | some t =>
    refine BW.bind (BW.same _) (fun a b hab => ?_)
    cases hab
    refine BW.bind (BW.same _) (fun a b hab => ?_)
    cases hab
    exact mkFull_number _ _ _ _ _ _ _ _ _

theorem analyzeFree_number (ln ln' : Int) (raw : Str) (pd : Char) (pc lit : Bool) :
    BothWays (fun x y => Renumbered x.1 y.1 ∧ y.2 = x.2) (analyzeFree ln raw pd pc lit) (analyzeFree ln' raw pd pc lit) := by
  unfold analyzeFree
  dsimp only
  refine BW.ite (fun _ => ?_) (fun _ => ?_)
  · cases findFirstNotOf [' ', '\t', '\r'] raw with
    | none => exact BW.ok ⟨rfl, rfl⟩
    | some ri =>
      refine BW.ite (fun _ => ?_) (fun _ => BW.ok ⟨rfl, rfl⟩)
      refine BW.bind (BW.same _) (fun a b hab => ?_)
      cases hab
      exact BW.ok ⟨rfl, rfl⟩
  · cases findFirstNotOf [' ', '\t', '\r'] raw with
    | none => exact BW.ok ⟨rfl, rfl⟩
    | some ri =>
      refine BW.bind (BW.same _) (fun a b hab => ?_)
      cases hab
      refine BW.ite (fun _ => BW.ok ⟨rfl, rfl⟩) (fun _ => ?_)
      refine BW.bind (BW.same _) (fun a b hab => ?_)
      cases hab
      refine BW.ite (fun _ => BW.ok ⟨rfl, rfl⟩) (fun _ => ?_)
      refine BW.ite (fun _ => ?_) (fun _ => ?_)
      · refine BW.bind (BW.same _) (fun a b hab => ?_)
        cases hab
        exact BW.ite (fun _ => BW.ok ⟨rfl, rfl⟩) (fun _ => BW.ite (fun _ => BW.ok ⟨rfl, rfl⟩) (fun _ => BW.ok ⟨rfl, rfl⟩))
      · refine BW.bind (freeBody_number _ _ _ _ _ _ _) (fun a b hab => ?_)
        exact BW.ok ⟨hab, rfl⟩

/-- Both give up, or both give related lists. -/
def Lists (Q : FileLine → FileLine → Prop) (o o' : Option (List FileLine)) : Prop :=
  match o, o' with
  | none, none => True
  | some l, some l' => List.Forall₂ Q l l'
  | _, _ => False

theorem analyzeAllFree_number : ∀ (raws : List Str) (ln ln' : Nat) (pd : Char) (pc lit : Bool),
    BothWays (Lists Renumbered) (analyzeAllFree ln pd pc lit raws) (analyzeAllFree ln' pd pc lit raws)
  | [], ln, ln', pd, pc, lit => BW.ok (show Lists Renumbered (some []) (some []) from .nil)
  | r :: rs, ln, ln', pd, pc, lit => by
    rw [analyzeAllFree, analyzeAllFree]
    have h := analyzeFree_number ln ln' r pd pc lit
    revert h
    cases analyzeFree ln r pd pc lit with
    | error e =>
      cases analyzeFree ln' r pd pc lit with
      | ok y => intro h; exact h.elim
      | error e' =>
        intro h
        have : e' = e := h
        subst this
        cases e' with
        | exc => exact BW.ok (show Lists Renumbered none none from trivial)
        | assertion => exact BW.err _
        | ub => exact BW.err _
    | ok x =>
      cases analyzeFree ln' r pd pc lit with
      | error e' => intro h; exact h.elim
      | ok y =>
        intro h
        have h : Renumbered x.1 y.1 ∧ y.2 = x.2 := h
        obtain ⟨f, l⟩ := x
        obtain ⟨f', l'⟩ := y
        obtain ⟨h1, h2⟩ := h
        dsimp only at h1 h2
        subst h2
        have h1' : f' = { f with linenum := f'.linenum } := h1
        have e1 : f'.open_delim = f.open_delim := by rw [h1']
        have e2 : f'.bits = f.bits := by rw [h1']
        dsimp only
        rw [e1, e2]
        refine BW.bind (analyzeAllFree_number rs (ln + 1) (ln' + 1) _ _ _) (fun o o' ho => BW.ok ?_)
        cases o with
        | none =>
          cases o' with
          | none => trivial
          | some _ => exact ho.elim
        | some fs =>
          cases o' with
          | none => exact ho.elim
          | some fs' => exact List.Forall₂.cons h1 ho

/-! ### Lists of lines -/

theorem analyzeAllFree_kind : ∀ {raws : List Str} {ln : Nat} {pd : Char} {pc lit : Bool} {fs : List FileLine}, validDelim pd = true →
    analyzeAllFree ln pd pc lit raws = .ok (some fs) → ∀ f ∈ fs, FreeKind f
  | [], _, _, _, _, fs, _, h => by
    simp [analyzeAllFree] at h
    subst h
    simp
  | r :: rs, ln, pd, pc, lit, fs, hd, h => by
    rw [analyzeAllFree] at h
    split at h
    · cases h
    · cases h
    · rename_i f lit' hf
      rbind h with o ho
      cases o with
      | none => simp at h
      | some gs =>
        simp at h
        subst h
        intro g hg
        rcases List.mem_cons.mp hg with rfl | hg
        · exact (free_kind hd hf).1
        · exact analyzeAllFree_kind (free_delim hf) ho g hg

/-- A failure of the first lines is a failure of all, and otherwise the rest is read with what the first lines leave behind. -/
theorem analyzeAllFree_append : ∀ (A : List Str) (ln : Nat) (pd : Char) (pc lit : Bool), validDelim pd = true →
    (∀ fs, analyzeAllFree ln pd pc lit A = .ok (some fs) → ∃ pd' pc' lit',
      (∀ B, analyzeAllFree ln pd pc lit (A ++ B) = (analyzeAllFree (ln + A.length) pd' pc' lit' B >>= fun o => .ok (o.map (fs ++ ·)))) ∧
      (fs = [] → pd' = pd ∧ pc' = pc ∧ lit' = lit) ∧
      (∀ f, fs.getLast? = some f → pd' = f.open_delim ∧ pc' = f.bits.continued ∧ (lit' = true → f.bits.flpr_lit = true))) ∧
    ((∀ fs, analyzeAllFree ln pd pc lit A ≠ .ok (some fs)) → ∀ B, analyzeAllFree ln pd pc lit (A ++ B) = analyzeAllFree ln pd pc lit A)
  | [], ln, pd, pc, lit, hd => by
    refine ⟨fun fs h => ?_, fun h => absurd rfl (h [])⟩
    simp [analyzeAllFree] at h
    subst h
    refine ⟨pd, pc, lit, fun B => ?_, fun _ => ⟨rfl, rfl, rfl⟩, by simp⟩
    show analyzeAllFree ln pd pc lit B = _
    have : (fun o : Option (List FileLine) => (Except.ok (o.map ([] ++ ·)) : Res _)) = fun o => .ok o := by
      funext o
      cases o <;> rfl
    rw [this]
    cases analyzeAllFree ln pd pc lit B <;> rfl
  | r :: rs, ln, pd, pc, lit, hd => by
    rw [analyzeAllFree]
    cases hf : analyzeFree ln r pd pc lit with
    | error e =>
      refine ⟨fun fs h => ?_, fun _ B => ?_⟩
      · cases e <;> cases h
      · rw [List.cons_append, analyzeAllFree, hf]
        cases e <;> rfl
    | ok x =>
      obtain ⟨f, l⟩ := x
      dsimp only
      obtain ⟨ih1, ih2⟩ := analyzeAllFree_append rs (ln + 1) f.open_delim f.bits.continued l (free_delim hf)
      constructor
      · intro fs h
        rbind h with o ho
        cases o with
        | none => simp at h
        | some gs =>
          simp at h
          subst h
          obtain ⟨pd', pc', lit', h1, h2, h3⟩ := ih1 gs ho
          refine ⟨pd', pc', lit', fun B => ?_, by simp, ?_⟩
          · rw [List.cons_append, analyzeAllFree, hf]
            dsimp only
            rw [h1 B, List.length_cons, show ln + (rs.length + 1) = ln + 1 + rs.length by omega]
            cases analyzeAllFree (ln + 1 + rs.length) pd' pc' lit' B with
            | error e => rfl
            | ok o => cases o <;> rfl
          · intro g hg
            cases gs with
            | nil =>
              simp at hg
              subst hg
              obtain ⟨e1, e2, e3⟩ := h2 rfl
              exact ⟨e1, e2, fun h => (free_kind hd hf).2 (e3 ▸ h)⟩
            | cons a as =>
              rw [List.getLast?_cons_cons] at hg
              exact h3 g hg
      · intro h B
        rw [List.cons_append, analyzeAllFree, hf]
        dsimp only
        rw [ih2 ?_ B]
        intro fs hfs
        refine h (f :: fs) ?_
        rw [hfs]
        rfl

/-! ### Comments and blank lines -/

theorem notOf_blank {raw : Str} : (findFirstNotOf [' ', '\t', '\r'] raw = none → body raw = []) := by
  intro h
  unfold findFirstNotOf at h
  rw [List.findIdx?_eq_none_iff] at h
  unfold body
  rw [List.dropWhile_eq_nil_iff]
  intro c hc
  have := h c hc
  simp [isBlankChar] at this ⊢
  tauto

/-- A comment line leaves the state of the reading as it is. -/
theorem analyze_comment {c : Str} (hc : lineCat false c = .comment) (ln : Int) (pd : Char) (pc : Bool) :
    analyzeFree ln c pd pc false = .ok (mkLeft ln { comment := true, continued := pc } c, false) := by
  unfold lineCat at hc
  simp only [Bool.false_eq_true, if_false] at hc
  split at hc
  · cases hc
  rename_i hb
  split at hc
  · cases hc
  rename_i hh
  split at hc
  · cases hc
  rename_i hi
  split at hc
  · rename_i hbang
    split at hc
    · cases hc
    rename_i hl
    split at hc
    · cases hc
    rename_i hm
    -- the analysis cannot fail
    have hok : ∃ r, analyzeFree ln c pd pc false = .ok r := by
      unfold analyzeFree
      simp only [Bool.false_eq_true, if_false]
      cases hri : findFirstNotOf [' ', '\t', '\r'] c with
      | none => exact absurd (notOf_blank hri) hb
      | some ri =>
        obtain ⟨e1, e2, e3, e4⟩ := findFirstNotOf_blank _ _ hri
        have hget : c.getD ri NUL = '!' := by
          have : c[ri]? = some '!' := by
            rw [← List.head?_drop, e2, hbang]
          simp [List.getD_eq_getElem?_getD, this]
        dsimp only
        rw [hget]
        have hup : cToUpper '!' = .ok '!' := by decide
        rw [hup, Res.ok_bind, if_neg (by simp)]
        have hinc : isIncludeLine c ri = .ok false := by
          unfold isIncludeLine
          rw [if_neg (by omega), if_pos (by rw [hget]; decide)]
        rw [hinc, Res.ok_bind, if_neg (by simp), if_pos rfl]
        obtain ⟨b, hb, _⟩ := isFlprLiteral_ok c ri
        rw [hb, Res.ok_bind]
        split
        · exact ⟨_, rfl⟩
        · split <;> exact ⟨_, rfl⟩
    obtain ⟨⟨f, l⟩, h⟩ := hok
    rw [h]
    rcases analyzeFree_cases h with ⟨h1, _⟩ | ⟨_, h1, _⟩ | ⟨c0, rest, _, hb1, h⟩
    · cases h1
    · exact absurd h1 hb
    · rw [hb1] at hbang
      simp at hbang
      subst hbang
      rcases h with ⟨h1, _⟩ | ⟨_, h1, _⟩ | ⟨_, _, h⟩
      · exact absurd h1 hh
      · exact absurd h1 hi
      · rcases h with ⟨_, h1, _⟩ | ⟨_, _, h1, _⟩ | ⟨_, _, _, h1, h2⟩ | ⟨h1, _⟩
        · exact absurd h1 hl
        · exact absurd h1 hm
        · rw [h1, h2]
        · exact absurd rfl h1
  · cases hc

theorem analyze_blank {c : Str} (hc : lineCat false c = .blank) (ln : Int) (pd : Char) (pc : Bool) :
    analyzeFree ln c pd pc false = .ok (mkLeft ln { blank := true } c, false) := by
  have hb : body c = [] := by
    unfold lineCat at hc
    simp only [Bool.false_eq_true, if_false] at hc
    split at hc
    · assumption
    · split at hc
      · cases hc
      · split at hc
        · cases hc
        · split at hc
          · split at hc
            · cases hc
            · split at hc <;> cases hc
          · cases hc
  unfold analyzeFree
  simp only [Bool.false_eq_true, if_false]
  cases hri : findFirstNotOf [' ', '\t', '\r'] c with
  | none => rfl
  | some ri => exact absurd hb (findFirstNotOf_blank _ _ hri).2.2.1

/-- Comment lines, or blank lines where the line before is not continued, are read whatever follows and change nothing. -/
theorem analyze_inserted (pc : Bool) : ∀ (C : List Str), (∀ c ∈ C, lineCat false c = .comment ∨ (lineCat false c = .blank ∧ pc = false)) →
    ∀ (ln : Nat), ∃ fc, (∀ f ∈ fc, f.isTrivial = true) ∧ ∀ B, analyzeAllFree ln NUL pc false (C ++ B) =
      (analyzeAllFree (ln + C.length) NUL pc false B >>= fun o => .ok (o.map (fc ++ ·)))
  | [], _, ln => by
    refine ⟨[], by simp, fun B => ?_⟩
    have : (fun o : Option (List FileLine) => (Except.ok (o.map ([] ++ ·)) : Res _)) = fun o => .ok o := by
      funext o
      cases o <;> rfl
    rw [this]
    show analyzeAllFree ln NUL pc false B = analyzeAllFree ln NUL pc false B >>= _
    cases analyzeAllFree ln NUL pc false B <;> rfl
  | c :: cs, hc, ln => by
    obtain ⟨fc, h1, h2⟩ := analyze_inserted pc cs (fun x hx => hc x (by simp [hx])) (ln + 1)
    have hf : ∃ f, analyzeFree ln c NUL pc false = .ok (f, false) ∧ f.isTrivial = true ∧ f.open_delim = NUL ∧ f.bits.continued = pc := by
      rcases hc c (by simp) with h | ⟨h, rfl⟩
      · exact ⟨_, analyze_comment h ln NUL pc, rfl, rfl, rfl⟩
      · exact ⟨_, analyze_blank h ln NUL false, rfl, rfl, rfl⟩
    obtain ⟨f, e1, e2, e3, e4⟩ := hf
    refine ⟨f :: fc, ?_, fun B => ?_⟩
    · intro g hg
      rcases List.mem_cons.mp hg with rfl | hg
      · exact e2
      · exact h1 g hg
    · rw [List.cons_append, analyzeAllFree, e1]
      dsimp only
      rw [e3, e4, h2 B, List.length_cons, show ln + (cs.length + 1) = ln + 1 + cs.length by omega]
      cases analyzeAllFree (ln + 1 + cs.length) NUL pc false B with
      | error e => rfl
      | ok o => cases o <;> rfl

end FLPR
