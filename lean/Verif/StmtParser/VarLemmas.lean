import Verif.StmtParser.VarRun
/-!
# Statements whose variables stand in their last parentheses

When such a statement is recognised, `variable` was not called at all (`exec_kill`).
-/

namespace FLPR
namespace SP
open Spec

theorem lastPair_unique {s : Strm} {k j : Nat} (h : GoodStmt s) (hk : LastPair s k) (hj : LastPair s j) : k = j := by
  obtain ⟨h1, h2⟩ := designatorEnd_last h hk
  obtain ⟨h3, h4⟩ := designatorEnd_last h hj
  rw [h1] at h3
  injection h3 with h3
  have h3 : s.hi - k = s.hi - j := congrArg Strm.pos h3
  omega

/-- The statement begins with `pre`, and the rest is one pair of parentheses. -/
theorem lastPair_group {s : Strm} (h : GoodStmt s) {pre v : List Tok} (hr : restOf s = pre ++ v) {m : List Int}
    (hm : WellNested m) (hv : v.map (·.token) = Tag.TK_PARENL :: (m ++ [Tag.TK_PARENR])) : LastPair s v.length := by
  have hat : At (tagsOf s) s.pos ((restOf s).map (·.token)) := by
    rw [restOf_map]
    exact slice_at h.pos_hi (by rw [Strm.len_tags]; exact h.hi_len)
  have hl := restOf_length h
  have hhi := h.pos_hi
  have hlo := h.lo_pos
  rw [hr, List.length_append] at hl
  have hvl : v.length = m.length + 2 := by
    have := congrArg List.length hv
    simpa using this
  rw [hr, List.map_append, hv, At.append, List.length_map] at hat
  refine .inr ⟨s.pos + pre.length, by omega, by omega, ?_, by omega⟩
  exact parenPair_at.mpr ⟨m, by omega, wn_balanced hm, hat.2⟩

/-- The statement does not end in a parenthesis. -/
theorem lastPair_zero {s : Strm} (h : GoodStmt s) (hs : s.pos = s.lo) (hr : ∀ a ∈ restOf s, a.token ≠ Tag.TK_PARENR) :
    LastPair s 0 := by
  refine .inl ⟨rfl, ?_⟩
  rintro ⟨h1, h2⟩
  have hl := restOf_length h
  have hat : At (tagsOf s) s.pos ((restOf s).map (·.token)) := by
    rw [restOf_map]
    exact slice_at h.pos_hi (by rw [Strm.len_tags]; exact h.hi_len)
  have h3 := hat (s.hi - 1 - s.pos) (by rw [List.length_map]; omega)
  rw [show s.pos + (s.hi - 1 - s.pos) = s.hi - 1 by omega, h2] at h3
  injection h3 with h3
  rw [List.getElem_map] at h3
  exact hr _ (List.getElem_mem _) h3.symm

theorem lastPair_exists {s : Strm} (h : WholeStmt s) : ∃ k, LastPair s k := by
  have hf := whole_fresh h
  obtain ⟨u, v, e, hv⟩ := split_exists hf.wn
  rcases hv with ⟨rfl, hl⟩ | ⟨m, _, hm, hv⟩
  · refine ⟨0, .inl ⟨rfl, ?_⟩⟩
    rintro ⟨h1, h2⟩
    apply hl
    have hlen := restOf_length hf.good
    have hst := h.start
    have hat : At (tagsOf s) s.pos ((restOf s).map (·.token)) := by
      rw [restOf_map]
      exact slice_at h.pos_hi (by rw [Strm.len_tags]; exact h.hi_len)
    have h3 := hat (s.hi - 1 - s.pos) (by rw [List.length_map]; omega)
    rw [show s.pos + (s.hi - 1 - s.pos) = s.hi - 1 by omega, h2] at h3
    rw [List.getLast?_eq_getElem?, List.getElem?_eq_getElem (by rw [List.length_map]; omega)]
    rw [h3]
    exact congrArg some (by congr 1; rw [List.length_map]; omega)
  · exact ⟨v.length, lastPair_group hf.good e hm hv⟩

/-! ### The form without variables -/

/-- The form with nothing in place of a variable. -/
def VForm.kill : VForm → PForm
  | .base F => F
  | .var => .never
  | .seq a b => .seq (kill a) (kill b)
  | .alt a b => .alt (kill a) (kill b)
  | .star a => .star (kill a)

/-- Variables come behind an opening parenthesis. -/
def VForm.guard : VForm → Bool
  | .base _ => true
  | .var => false
  | .seq a b => (a == .base (.tok Tag.TK_PARENL)) || (guard a && guard b)
  | .alt a b => guard a && guard b
  | .star a => guard a

/-- What is in front of the last `k` tokens has no opening parenthesis. -/
def Before (k : Nat) (ts : List Tok) : Prop :=
  ∃ pre v, ts = pre ++ v ∧ v.length = k ∧ ∀ a ∈ pre, a.token ≠ Tag.TK_PARENL

theorem before_suffix {k : Nat} {w r : List Tok} (h : Before k (w ++ r)) : Before k r ∨ r.length < k := by
  obtain ⟨pre, v, e, hv, hp⟩ := h
  rcases List.append_eq_append_iff.mp e with ⟨a, rfl, rfl⟩ | ⟨a, rfl, rfl⟩
  · exact .inl ⟨a, v, rfl, hv, fun x hx => hp x (by simp [hx])⟩
  · cases a with
    | nil => exact .inl ⟨[], r, rfl, by simpa using hv, by simp⟩
    | cons a as => exact .inr (by simp at hv; omega)

theorem before_open {k : Nat} {a : Tok} {r : List Tok} (ha : a.token = Tag.TK_PARENL) (h : Before k (a :: r)) : r.length < k := by
  obtain ⟨pre, v, e, hv, hp⟩ := h
  cases pre with
  | nil =>
    rw [List.nil_append] at e
    rw [← hv, ← e]
    simp
  | cons b pre =>
    injection e with e1 e2
    subst e1
    exact absurd ha (hp a (by simp))

/-- The variables of the form would be called with less than `k` tokens left. -/
def Dead (k : Nat) (V : VForm) (ts : List Tok) : Prop := ts.length < k ∨ (Before k ts ∧ V.guard = true)

theorem dead_suffix {k : Nat} {V W : VForm} {w r : List Tok} (h : Dead k V (w ++ r)) (hW : V.guard = true → W.guard = true) : Dead k W r := by
  rcases h with h | ⟨h1, h2⟩
  · left; simp at h; omega
  · rcases before_suffix h1 with h | h
    · exact .inr ⟨h, hW h2⟩
    · exact .inl h

theorem star_kill {f : List Tok → Act} {g : List Tok → Option (List Tok)} {Q : List Tok → Prop}
    (hf : ∀ ts, Q ts → ∀ r, f ts = .acts r → g ts = r) (hq : ∀ ts r, Q ts → g ts = some r → Q r) :
    ∀ m ts n r, Q ts → ts.length ≤ n → starA f m ts = .acts r → some (PForm.starL g n ts) = r := by
  intro m
  induction m with
  | zero => intro ts n r _ _ h; cases h
  | succ m ih =>
    intro ts n r hQ hn h
    rw [starA] at h
    cases he : f ts with
    | stuck => rw [he] at h; cases h
    | acts q =>
      rw [he] at h
      have hg := hf ts hQ q he
      cases q with
      | none =>
        injection h with h; subst h
        cases n with
        | zero => rfl
        | succ n => rw [PForm.starL, hg]
      | some q =>
        simp only at h
        split at h
        · next hlt =>
          cases n with
          | zero => omega
          | succ n =>
            rw [PForm.starL, hg]
            simp only
            rw [if_pos hlt]
            exact ih q n r (hq ts q hQ hg) (by omega) h
        · cases h

theorem exec_kill {k : Nat} : ∀ (V : VForm) (ts : List Tok) (r : Option (List Tok)), Nested (ts.map (·.token)) → Dead k V ts →
    V.exec k ts = .acts r → V.kill.run ts = r := by
  intro V
  induction V with
  | base F => intro ts r _ _ h; injection h
  | var =>
    intro ts r _ hd h
    rcases hd with hd | ⟨_, hd⟩
    · rw [VForm.exec, varL, if_pos hd] at h; cases h
    · cases hd
  | seq a b iha ihb =>
    intro ts r hn hd h
    rw [VForm.exec] at h
    have hda : Dead k a ts ∧ ∀ w q, ts = w ++ q → a.kill.run ts = some q → Dead k b q := by
      rcases hd with hd | ⟨hb, hg⟩
      · exact ⟨.inl hd, fun w q e _ => .inl (by rw [e] at hd; simp at hd; omega)⟩
      · rw [VForm.guard, Bool.or_eq_true, Bool.and_eq_true] at hg
        rcases hg with hg | ⟨h1, h2⟩
        · have hg : a = .base (.tok Tag.TK_PARENL) := by simpa using hg
          subst hg
          refine ⟨.inr ⟨hb, rfl⟩, fun w q e hq => .inl ?_⟩
          obtain ⟨c, e1, e2⟩ := take1_sound (show PForm.take1 _ ts = some q from hq)
          rw [e1] at hb
          exact before_open (by simpa using e2) hb
        · exact ⟨.inr ⟨hb, h1⟩, fun w q e _ => by
            rw [e] at hb
            rcases before_suffix hb with h | h
            · exact .inr ⟨h, h2⟩
            · exact .inl h⟩
    rw [VForm.kill, PForm.run]
    cases he : a.exec k ts with
    | stuck => rw [he] at h; cases h
    | acts q =>
      rw [he] at h
      have h1 := iha ts q hn hda.1 he
      cases q with
      | none => injection h with h; subst h; rw [h1]; rfl
      | some q =>
        obtain ⟨w, e1, _⟩ := run_sound _ _ _ hn h1
        rw [h1, Option.bind_some]
        refine ihb q r ?_ (hda.2 w q e1 h1) h
        rw [e1, List.map_append] at hn
        exact hn.suffix
  | alt a b iha ihb =>
    intro ts r hn hd h
    rw [VForm.exec] at h
    have hda : Dead k a ts ∧ Dead k b ts := by
      rcases hd with hd | ⟨hb, hg⟩
      · exact ⟨.inl hd, .inl hd⟩
      · rw [VForm.guard, Bool.and_eq_true] at hg
        exact ⟨.inr ⟨hb, hg.1⟩, .inr ⟨hb, hg.2⟩⟩
    rw [VForm.kill, PForm.run]
    cases he : a.exec k ts with
    | stuck => rw [he] at h; cases h
    | acts q =>
      rw [he] at h
      have h1 := iha ts q hn hda.1 he
      rw [h1]
      cases q with
      | none => exact ihb ts r hn hda.2 h
      | some q => injection h
  | star a ih =>
    intro ts r hn hd h
    rw [VForm.kill, PForm.run]
    rw [VForm.exec] at h
    refine star_kill (Q := fun ts => Nested (ts.map (·.token)) ∧ Dead k a ts) (fun ts hq r hr => ih ts r hq.1 hq.2 hr) ?_ _ ts _ r ⟨hn, ?_⟩ (le_refl _) h
    · rintro ts r ⟨h1, h2⟩ hr
      obtain ⟨w, rfl, _⟩ := run_sound _ _ _ h1 hr
      rw [List.map_append] at h1
      exact ⟨h1.suffix, dead_suffix h2 id⟩
    · exact hd

/-! ### Nesting -/

def openOf (c : Bool) : Int := if c then Tag.TK_PARENL else Tag.TK_BRACKETL
def closeOf (c : Bool) : Int := if c then Tag.TK_PARENR else Tag.TK_BRACKETR

/-- A properly nested list up to some parentheses and brackets that are open. -/
def OpenL : List Bool → List Int → Prop
  | [], l => WellNested l
  | c :: st, l => ∃ a b, l = a ++ openOf c :: b ∧ OpenL st a ∧ WellNested b

theorem openL_append {st : List Bool} {l g : List Int} (h : OpenL st l) (hg : WellNested g) : OpenL st (l ++ g) := by
  cases st with
  | nil => exact wn_append h hg
  | cons c st =>
    obtain ⟨a, b, rfl, h1, h2⟩ := h
    exact ⟨a, b ++ g, by simp, h1, wn_append h2 hg⟩

theorem openL_open {st : List Bool} {l : List Int} (c : Bool) (h : OpenL st l) : OpenL (c :: st) (l ++ [openOf c]) :=
  ⟨l, [], rfl, h, .nil⟩

theorem openL_close {st : List Bool} {l : List Int} (c : Bool) (h : OpenL (c :: st) l) : OpenL st (l ++ [closeOf c]) := by
  obtain ⟨a, b, rfl, h1, h2⟩ := h
  rw [List.append_assoc]
  refine openL_append h1 ?_
  cases c with
  | true => exact .paren (b := []) h2 .nil
  | false => exact .bracket (b := []) h2 .nil

/-- The parentheses and brackets open behind a form. -/
def balF (st : List Bool) : Form → Option (List Bool)
  | .word t =>
    if t = Tag.TK_PARENL then some (true :: st)
    else if t = Tag.TK_BRACKETL then some (false :: st)
    else if t = Tag.TK_PARENR then (match st with | true :: st => some st | _ => none)
    else if t = Tag.TK_BRACKETR then (match st with | false :: st => some st | _ => none)
    else some st
  | .seq a b => (balF st a).bind (fun st => balF st b)
  | .alt a b => if balF st a = balF st b then balF st a else none
  | .star a => if balF st a = some st then some st else none
  | _ => some st

theorem balF_sound : ∀ (F : Form) (st st' : List Bool) (w : List Tok), balF st F = some st' → F.Is w → ∀ l, OpenL st l →
    OpenL st' (l ++ w.map (·.token)) := by
  intro F
  induction F with
  | empty =>
    intro st st' w h hw l hl
    injection h with h; subst h
    rw [show w = [] from hw]; simpa using hl
  | never => intro st st' w _ hw; exact hw.elim
  | word t =>
    rintro st st' w h ⟨a, rfl, rfl⟩ l hl
    rw [balF.eq_def] at h
    dsimp only at h
    simp only [List.map_cons, List.map_nil]
    split at h
    · next e => injection h with h; subst h; rw [e]; exact openL_open true hl
    · split at h
      · next e => injection h with h; subst h; rw [e]; exact openL_open false hl
      · split at h
        · next e =>
          split at h
          · injection h with h; subst h; rw [e]; exact openL_close true hl
          · cases h
        · split at h
          · next e =>
            split at h
            · injection h with h; subst h; rw [e]; exact openL_close false hl
            · cases h
          · next h1 h2 h3 h4 =>
            injection h with h; subst h
            exact openL_append hl (.plain ⟨h1, h3, h2, h4⟩ .nil)
  | name =>
    rintro st st' w h ⟨a, rfl, ha⟩ l hl
    injection h with h; subst h
    exact openL_append hl (unbroken_wn (name_unbroken ha))
  | nameBut ex =>
    rintro st st' w h ⟨a, rfl, ha, _⟩ l hl
    injection h with h; subst h
    exact openL_append hl (unbroken_wn (name_unbroken ha))
  | letter =>
    rintro st st' w h ⟨a, rfl, ha, _⟩ l hl
    injection h with h; subst h
    exact openL_append hl (unbroken_wn (name_unbroken ha))
  | spelled s =>
    rintro st st' w h ⟨a, rfl, ha, _⟩ l hl
    injection h with h; subst h
    exact openL_append hl (unbroken_wn (name_unbroken ha))
  | expr =>
    intro st st' w h hw l hl
    injection h with h; subst h
    exact openL_append hl (unbroken_wn hw.1)
  | group =>
    rintro st st' w h ⟨a, ha, e⟩ l hl
    injection h with h; subst h
    exact openL_append hl (by rw [e]; exact .paren (b := []) ha .nil)
  | seq a b iha ihb =>
    rintro st st' w h ⟨u, v, rfl, h1, h2⟩ l hl
    obtain ⟨st2, e1, e2⟩ := Option.bind_eq_some_iff.mp h
    rw [List.map_append, ← List.append_assoc]
    exact ihb _ _ _ e2 h2 _ (iha _ _ _ e1 h1 _ hl)
  | alt a b iha ihb =>
    intro st st' w h hw l hl
    rw [balF] at h
    split at h
    · next e =>
      rcases hw with hw | hw
      · exact iha _ _ _ h hw _ hl
      · rw [e] at h; exact ihb _ _ _ h hw _ hl
    · cases h
  | star a ih =>
    rintro st st' w h ⟨ps, rfl, hps⟩ l hl
    rw [balF] at h
    split at h
    · next e =>
      injection h with h; subst h
      induction ps generalizing l with
      | nil => simpa using hl
      | cons q ps ihp =>
        rw [List.flatten_cons, List.map_append, ← List.append_assoc]
        exact ihp (fun q hq => hps q (by simp [hq])) _ (ih _ _ _ e (hps q (by simp)).2 _ hl)
    · cases h

/-- A form of properly nested words. -/
theorem balF_wn {F : Form} (h : balF [] F = some []) {w : List Tok} (hw : F.Is w) : WellNested (w.map (·.token)) :=
  balF_sound F [] [] w h hw [] .nil

/-- The parentheses and brackets open behind a form with variables. -/
def VForm.balV (st : List Bool) : VForm → Option (List Bool)
  | .base F => balF st F.erase
  | .var => some st
  | .seq a b => (balV st a).bind (fun st => balV st b)
  | .alt a b => if balV st a = balV st b then balV st a else none
  | .star a => if balV st a = some st then some st else none

/-- What is in front of the last `k` tokens is part of a properly nested list. -/
def FrontOk (k : Nat) (ts : List Tok) : Prop := k = 0 ∨ Nested ((ts.take (ts.length - k)).map (·.token))

theorem frontOk_suffix {k : Nat} {w r : List Tok} (h : FrontOk k (w ++ r)) : FrontOk k r := by
  rcases h with h | h
  · exact .inl h
  · right
    by_cases hk : k ≤ r.length
    · rw [show (w ++ r).length - k = w.length + (r.length - k) by rw [List.length_append]; omega, List.take_length_add_append,
        List.map_append] at h
      exact h.suffix
    · rw [show r.length - k = 0 by omega]
      exact ⟨[], 0, .nil, rfl⟩

theorem varL_wn {k : Nat} {ts z : List Tok} (hn : Nested (ts.map (·.token))) (hf : FrontOk k ts) (h : varL k ts = .acts (some z)) :
    ∃ w, ts = w ++ z ∧ WellNested (w.map (·.token)) := by
  rw [varL] at h
  split at h
  · cases h
  · next hl =>
    injection h with h
    rw [variableL] at h
    split at h
    · rw [List.take_append_drop] at h
      obtain ⟨w, e, hw⟩ := run_sound _ _ _ hn h
      exact ⟨w, e, balF_wn (by decide +kernel) hw⟩
    · rw [callL] at h
      split at h
      · next hd =>
        rcases hf with rfl | hf
        · rw [Nat.sub_zero, List.drop_length, show argumentsF.run [] = none by decide +kernel] at h
          cases h
        · have hv : Nested ((ts.drop (ts.length - k)).map (·.token)) := by
            rw [← List.take_append_drop (ts.length - k) ts, List.map_append] at hn
            exact hn.suffix
          obtain ⟨w1, e1, hw1⟩ := run_sound _ _ _ hf hd
          obtain ⟨w2, e2, hw2⟩ := run_sound _ _ _ hv h
          refine ⟨w1 ++ w2, ?_, ?_⟩
          · rw [List.append_nil] at e1
            rw [List.append_assoc, ← e2, ← e1, List.take_append_drop]
          · rw [List.map_append]
            exact wn_append (balF_wn (by decide +kernel) hw1) (balF_wn (by decide +kernel) hw2)
      · cases h

theorem balV_sound {k : Nat} : ∀ (V : VForm) (st st' : List Bool) (ts z : List Tok), V.balV st = some st' → Nested (ts.map (·.token)) →
    FrontOk k ts → V.exec k ts = .acts (some z) → ∃ w, ts = w ++ z ∧ ∀ l, OpenL st l → OpenL st' (l ++ w.map (·.token)) := by
  intro V
  induction V with
  | base F =>
    intro st st' ts z h hn _ he
    injection he with he
    obtain ⟨w, e, hw⟩ := run_sound _ _ _ hn he
    exact ⟨w, e, balF_sound _ _ _ _ h hw⟩
  | var =>
    intro st st' ts z h hn hf he
    injection h with h; subst h
    obtain ⟨w, e, hw⟩ := varL_wn hn hf he
    exact ⟨w, e, fun l hl => openL_append hl hw⟩
  | seq a b iha ihb =>
    intro st st' ts z h hn hf he
    obtain ⟨st2, e1, e2⟩ := Option.bind_eq_some_iff.mp h
    rw [VForm.exec] at he
    cases ha : a.exec k ts with
    | stuck => rw [ha] at he; cases he
    | acts q =>
      rw [ha] at he
      cases q with
      | none => cases he
      | some q =>
        obtain ⟨w1, e3, h1⟩ := iha _ _ _ _ e1 hn hf ha
        rw [e3] at hf
        rw [e3, List.map_append] at hn
        obtain ⟨w2, e4, h2⟩ := ihb _ _ _ _ e2 hn.suffix (frontOk_suffix hf) he
        refine ⟨w1 ++ w2, by rw [e3, e4, List.append_assoc], fun l hl => ?_⟩
        rw [List.map_append, ← List.append_assoc]
        exact h2 _ (h1 _ hl)
  | alt a b iha ihb =>
    intro st st' ts z h hn hf he
    rw [VForm.balV] at h
    rw [VForm.exec] at he
    split at h
    · next e =>
      cases ha : a.exec k ts with
      | stuck => rw [ha] at he; cases he
      | acts q =>
        rw [ha] at he
        cases q with
        | none => rw [e] at h; exact ihb _ _ _ _ h hn hf he
        | some q =>
          injection he with he; injection he with he; subst he
          exact iha _ _ _ _ h hn hf ha
    · cases h
  | star a ih =>
    intro st st' ts z h hn hf he
    rw [VForm.balV] at h
    rw [VForm.exec] at he
    split at h
    · next e =>
      injection h with h; subst h
      generalize hm : ts.length + 1 = m at he
      clear hm
      induction m generalizing ts with
      | zero => cases he
      | succ m ihm =>
        rw [starA] at he
        cases ha : a.exec k ts with
        | stuck => rw [ha] at he; cases he
        | acts q =>
          rw [ha] at he
          cases q with
          | none =>
            injection he with he; injection he with he; subst he
            exact ⟨[], rfl, fun l hl => by simpa using hl⟩
          | some q =>
            simp only at he
            split at he
            · obtain ⟨w1, e3, h1⟩ := ih _ _ _ _ e hn hf ha
              rw [e3] at hf
              rw [e3, List.map_append] at hn
              obtain ⟨w2, e4, h2⟩ := ihm q hn.suffix (frontOk_suffix hf) he
              refine ⟨w1 ++ w2, by rw [e3, e4, List.append_assoc], fun l hl => ?_⟩
              rw [List.map_append, ← List.append_assoc]
              exact h2 _ (h1 _ hl)
            · cases he
    · cases h

/-! ### The shape of a recognised statement -/

/-- Something properly nested and a closing parenthesis. -/
def VForm.closes : VForm → Bool
  | .seq a b => if b = .base .eps then a == .base (.tok Tag.TK_PARENR) else decide (a.balV [] = some []) && closes b
  | _ => false

/-- A pair of parentheses. -/
def VForm.isGroup : VForm → Bool
  | .seq a b => a == .base (.tok Tag.TK_PARENL) && closes b
  | _ => false

def VForm.isOptGroup : VForm → Bool
  | .alt a b => isGroup a && b == .base .eps
  | a => isGroup a

/-- No parentheses in any word. -/
def flatF : Form → Bool
  | .empty => true
  | .word t => t != Tag.TK_PARENL && t != Tag.TK_PARENR
  | .name => true
  | .seq a b => flatF a && flatF b
  | .alt a b => flatF a && flatF b
  | .star a => flatF a
  | _ => false

def VForm.isFlat : VForm → Bool
  | .base F => flatF F.erase
  | _ => false

/-- Something without parentheses, perhaps a pair of parentheses, and the end. -/
def VForm.shape : VForm → Bool
  | .seq a b => (isOptGroup a && b == .seq (.base (.peek Tag.BAD)) (.base .eps)) || (isFlat a && shape b)
  | _ => false

/-- No parentheses. -/
def NoParen (ts : List Tok) : Prop := ∀ a ∈ ts, a.token ≠ Tag.TK_PARENL ∧ a.token ≠ Tag.TK_PARENR

theorem flatF_sound : ∀ (F : Form) (w : List Tok), flatF F = true → F.Is w → NoParen w := by
  intro F
  induction F with
  | empty => intro w _ h; rw [show w = [] from h]; intro a ha; cases ha
  | word t =>
    rintro w h ⟨a, rfl, rfl⟩ b hb
    rw [List.mem_singleton] at hb; subst hb
    rw [flatF, Bool.and_eq_true, bne_iff_ne, bne_iff_ne] at h
    exact h
  | name =>
    rintro w _ ⟨a, rfl, h⟩ b hb
    rw [List.mem_singleton] at hb; subst hb
    constructor
    · intro e; rw [e] at h; revert h; decide
    · intro e; rw [e] at h; revert h; decide
  | seq a b iha ihb =>
    rintro w h ⟨u, v, rfl, h1, h2⟩ c hc
    rw [flatF, Bool.and_eq_true] at h
    rcases List.mem_append.mp hc with hc | hc
    · exact iha _ h.1 h1 c hc
    · exact ihb _ h.2 h2 c hc
  | alt a b iha ihb =>
    intro w h hw
    rw [flatF, Bool.and_eq_true] at h
    rcases hw with hw | hw
    · exact iha _ h.1 hw
    · exact ihb _ h.2 hw
  | star a ih =>
    rintro w h ⟨ps, rfl, hps⟩ c hc
    obtain ⟨q, hq, hcq⟩ := List.mem_flatten.mp hc
    exact ih _ h (hps q hq).2 c hcq
  | _ => intro w h; cases h

theorem exec_seq_some {k : Nat} {a b : VForm} {ts z : List Tok} (h : (VForm.seq a b).exec k ts = .acts (some z)) :
    ∃ q, a.exec k ts = .acts (some q) ∧ b.exec k q = .acts (some z) := by
  rw [VForm.exec] at h
  cases ha : a.exec k ts with
  | stuck => rw [ha] at h; cases h
  | acts q =>
    rw [ha] at h
    cases q with
    | none => cases h
    | some q => exact ⟨q, rfl, h⟩

theorem exec_tok_some {k : Nat} {t : Int} {ts z : List Tok} (h : (VForm.base (.tok t)).exec k ts = .acts (some z)) :
    ∃ a, ts = a :: z ∧ a.token = t := by
  injection h with h
  obtain ⟨a, e1, e2⟩ := take1_sound (show PForm.take1 _ ts = some z from h)
  exact ⟨a, e1, by simpa using e2⟩

theorem closes_sound {k : Nat} : ∀ (V : VForm) (ts z : List Tok), V.closes = true → Nested (ts.map (·.token)) → FrontOk k ts →
    V.exec k ts = .acts (some z) → ∃ w a, ts = w ++ a :: z ∧ a.token = Tag.TK_PARENR ∧ WellNested (w.map (·.token)) := by
  intro V
  induction V with
  | seq a b _ ihb =>
    intro ts z h hn hf he
    obtain ⟨q, h1, h2⟩ := exec_seq_some he
    rw [VForm.closes] at h
    split at h
    · next e =>
      have e2 : a = .base (.tok Tag.TK_PARENR) := by simpa using h
      subst e e2
      obtain ⟨c, e1, e2⟩ := exec_tok_some h1
      injection h2 with h2; injection h2 with h2; subst h2
      exact ⟨[], c, e1, e2, .nil⟩
    · rw [Bool.and_eq_true, decide_eq_true_iff] at h
      obtain ⟨w1, e1, hw1⟩ := balV_sound _ _ _ _ _ h.1 hn hf h1
      rw [e1] at hf
      rw [e1, List.map_append] at hn
      obtain ⟨w2, c, e2, hc, hw2⟩ := ihb _ _ h.2 hn.suffix (frontOk_suffix hf) h2
      refine ⟨w1 ++ w2, c, by rw [e1, e2, List.append_assoc], hc, ?_⟩
      rw [List.map_append]
      exact wn_append (hw1 [] .nil) hw2
  | _ => intro ts z h; cases h

theorem isGroup_sound {k : Nat} {V : VForm} {ts z : List Tok} (h : V.isGroup = true) (hn : Nested (ts.map (·.token))) (hf : FrontOk k ts)
    (he : V.exec k ts = .acts (some z)) :
    ∃ v m, ts = v ++ z ∧ WellNested m ∧ v.map (·.token) = Tag.TK_PARENL :: (m ++ [Tag.TK_PARENR]) := by
  cases V with
  | seq a b =>
    obtain ⟨q, h1, h2⟩ := exec_seq_some he
    rw [VForm.isGroup, Bool.and_eq_true] at h
    have e2 : a = .base (.tok Tag.TK_PARENL) := by simpa using h.1
    subst e2
    obtain ⟨c, e1, e2⟩ := exec_tok_some h1
    rw [e1] at hn hf
    have hf := frontOk_suffix (w := [c]) hf
    obtain ⟨w, d, e3, e4, hw⟩ := closes_sound _ _ _ h.2 (Nested.suffix (a := [c.token]) hn) hf h2
    exact ⟨c :: (w ++ [d]), w.map (·.token), by rw [e1, e3]; simp, hw, by simp [e2, e4]⟩
  | _ => cases h

theorem isOptGroup_sound {k : Nat} {V : VForm} {ts z : List Tok} (h : V.isOptGroup = true) (hn : Nested (ts.map (·.token)))
    (hf : FrontOk k ts) (he : V.exec k ts = .acts (some z)) :
    ∃ v, ts = v ++ z ∧ (v = [] ∨ ∃ m, WellNested m ∧ v.map (·.token) = Tag.TK_PARENL :: (m ++ [Tag.TK_PARENR])) := by
  have group : ∀ {V : VForm}, V.isGroup = true → V.exec k ts = .acts (some z) →
      ∃ v, ts = v ++ z ∧ (v = [] ∨ ∃ m, WellNested m ∧ v.map (·.token) = Tag.TK_PARENL :: (m ++ [Tag.TK_PARENR])) := by
    intro V h he
    obtain ⟨v, m, e, hm, hv⟩ := isGroup_sound h hn hf he
    exact ⟨v, e, .inr ⟨m, hm, hv⟩⟩
  cases V with
  | alt a b =>
    rw [VForm.isOptGroup, Bool.and_eq_true] at h
    have e2 : b = .base .eps := by simpa using h.2
    subst e2
    rw [VForm.exec] at he
    cases ha : a.exec k ts with
    | stuck => rw [ha] at he; cases he
    | acts q =>
      rw [ha] at he
      cases q with
      | none =>
        injection he with he; injection he with he; subst he
        exact ⟨[], rfl, .inl rfl⟩
      | some q =>
        injection he with he; injection he with he; subst he
        exact group h.1 ha
  | base F => cases h
  | var => cases h
  | star a => cases h
  | seq a b => exact group (V := .seq a b) (by rwa [VForm.isOptGroup] at h; intro a b e; cases e) he

theorem shape_sound {k : Nat} : ∀ (V : VForm) (ts z : List Tok), V.shape = true → Nested (ts.map (·.token)) → FrontOk k ts → NoBad ts →
    V.exec k ts = .acts (some z) → z = [] ∧ ∃ pre v, ts = pre ++ v ∧ NoParen pre ∧
      (v = [] ∨ ∃ m, WellNested m ∧ v.map (·.token) = Tag.TK_PARENL :: (m ++ [Tag.TK_PARENR])) := by
  intro V
  induction V with
  | seq a b _ ihb =>
    intro ts z h hn hf hb he
    obtain ⟨q, h1, h2⟩ := exec_seq_some he
    rw [VForm.shape, Bool.or_eq_true, Bool.and_eq_true, Bool.and_eq_true] at h
    rcases h with ⟨h3, h4⟩ | ⟨h3, h4⟩
    · have e2 : b = .seq (.base (.peek Tag.BAD)) (.base .eps) := by simpa using h4
      subst e2
      obtain ⟨v, e, hv⟩ := isOptGroup_sound h3 hn hf h1
      obtain ⟨q2, h5, h6⟩ := exec_seq_some h2
      injection h6 with h6; injection h6 with h6; subst h6
      injection h5 with h5
      rw [PForm.run] at h5
      split at h5
      · next hh =>
        injection h5 with h5; subst h5
        cases q with
        | nil => exact ⟨rfl, [], v, by rw [e]; simp, (fun a ha => (by cases ha)), hv⟩
        | cons c q => exact absurd hh (hb c (by rw [e]; simp))
      · cases h5
    · cases a with
      | base F =>
        injection h1 with h1
        obtain ⟨w, e, hw⟩ := run_sound _ _ _ hn h1
        rw [e] at hf hb
        rw [e, List.map_append] at hn
        obtain ⟨e1, pre, v, e2, hp, hv⟩ := ihb _ _ h4 hn.suffix (frontOk_suffix hf) hb.right h2
        refine ⟨e1, w ++ pre, v, by rw [e, e2, List.append_assoc], ?_, hv⟩
        intro c hc
        rcases List.mem_append.mp hc with hc | hc
        · exact flatF_sound _ _ h3 hw c hc
        · exact hp c hc
      | _ => cases h3
  | _ => intro ts z h; cases h

theorem frontOk_whole {s : Strm} {k : Nat} (h : WholeStmt s) (hk : LastPair s k) : FrontOk k (restOf s) := by
  have hf := whole_fresh h
  obtain ⟨u, v, e, hv⟩ := split_exists hf.wn
  rcases hv with ⟨rfl, hl⟩ | ⟨m, hu, hm, hv⟩
  · left
    rcases hk with hk | ⟨i, h1, h2, h3, h4⟩
    · exact hk.1
    · exfalso
      obtain ⟨m, hj, _, ha⟩ := parenPair_at.mp h3
      rw [At.cons, At.append, At.cons] at ha
      have h5 := ha.2.2.1
      rw [show i + 1 + m.length = s.hi - 1 by omega] at h5
      apply hl
      have hlen := restOf_length hf.good
      have hst := h.start
      have hat : At (tagsOf s) s.pos ((restOf s).map (·.token)) := by
        rw [restOf_map]
        exact slice_at h.pos_hi (by rw [Strm.len_tags]; exact h.hi_len)
      have h3 := hat (s.hi - 1 - s.pos) (by rw [List.length_map]; omega)
      rw [show s.pos + (s.hi - 1 - s.pos) = s.hi - 1 by omega, h5] at h3
      rw [List.getLast?_eq_getElem?, List.getElem?_eq_getElem (by rw [List.length_map]; omega)]
      rw [h3]
      exact congrArg some (by congr 1; rw [List.length_map]; omega)
  · right
    have := lastPair_unique hf.good hk (lastPair_group hf.good e hm hv)
    rw [this, e, show (u ++ v).length - v.length = u.length by simp, List.take_left]
    exact ⟨_, 0, hu, rfl⟩

/-- Where such a statement is recognised, the form without variables matches. -/
theorem recognised_kill {s : Strm} {k : Nat} {V : VForm} {z : List Tok} (h : WholeStmt s) (hk : LastPair s k) (hs : V.shape = true)
    (hg : V.guard = true) (he : V.exec k (restOf s) = .acts (some z)) : V.kill.run (restOf s) = some [] := by
  have hf := whole_fresh h
  have hn := good_nested hf.good
  obtain ⟨rfl, pre, v, e, hp, hv⟩ := shape_sound V _ _ hs hn (frontOk_whole h hk) (good_noBad hf.good) he
  refine exec_kill V _ _ hn (.inr ⟨⟨pre, v, e, ?_, fun a ha => (hp a ha).1⟩, hg⟩) he
  rcases hv with rfl | ⟨m, hm, hv⟩
  · refine lastPair_unique hf.good (lastPair_zero hf.good h.start ?_) hk
    rw [e, List.append_nil]
    exact fun a ha => (hp a ha).2
  · exact lastPair_unique hf.good (lastPair_group hf.good e hm hv) hk

end SP
end FLPR
