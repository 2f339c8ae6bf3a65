import Verif.StmtParser.HeadProps
/-!
# C86: what import, interface, macro and submodule statements look like (src/flpr/parse_stmt.cc)

In `import_stmt` and `interface_stmt` the end of the statement, which is meant to follow the last
alternative, is an alternative of its own.
-/

namespace FLPR
namespace Spec
open SP

/-- The statement begins with tokens of the form; anything may follow. -/
def BeginsWith (H : Form) (ts : List Tok) : Prop := ∃ w u, ts = w ++ u ∧ H.Is w

/-- `import, none` and `import, all` -/
def importAll : Form :=
  .seqs [.word Tag.KW_IMPORT, .word Tag.TK_COMMA, .oneOf [.word Tag.KW_NONE, .word Tag.KW_ALL]]

/-- `abstract interface` -/
def abstractInterface : Form := .seqs [.word Tag.KW_ABSTRACT, .word Tag.KW_INTERFACE]

/-- A name that cannot begin one of four statements, and anything in parentheses. -/
def macroForm : Form :=
  .seq (.nameBut [Tag.KW_ASSOCIATE, Tag.KW_WHERE, Tag.KW_FORALL, Tag.KW_CASE]) .group

/-- R1416 submodule-stmt without the name of the submodule. -/
def namelessSubmodule : Form :=
  .seqs [.word Tag.KW_SUBMODULE, .word Tag.TK_PARENL, .name, .opt (.seqs [.word Tag.TK_COLON, .name]), .word Tag.TK_PARENR]

end Spec

namespace SP
open Spec

/-- An alternative that ends at the end of the statement. -/
theorem whole_alt {A : PForm} {G : Form} (he : endsF A = true) (hG : sameForm A.erase G = true) (ht : takesAll [] A = true)
    {s : Strm} (hs : GoodStmt s) : (∃ r, A.run (restOf s) = some r) ↔ G.Is (restOf s) := by
  constructor
  · rintro ⟨r, h⟩
    have e := endsF_sound A _ _ he (good_nested hs) (good_noBad hs) h
    subst e
    obtain ⟨w, hw, hw2⟩ := run_sound A _ _ (good_nested hs) h
    rw [List.append_nil] at hw
    rw [hw]
    exact (sameForm_is hG w).mp hw2
  · intro h
    exact ⟨[], takesAll_sound ht (good_noBad hs) ((eraseBut_nil _ _).mpr ((sameForm_is hG _).mpr h))⟩

/-- An alternative that does not look at what follows. -/
theorem head_alt {A : PForm} {H : Form} (hG : sameForm A.erase H = true) (ht : chk [] ⟨3, true⟩ 60 A [.any] = true)
    {s : Strm} (hs : GoodStmt s) : (∃ r, A.run (restOf s) = some r) ↔ BeginsWith H (restOf s) := by
  constructor
  · rintro ⟨r, h⟩
    obtain ⟨w, hw, hw2⟩ := run_sound A _ _ (good_nested hs) h
    exact ⟨w, r, hw, (sameForm_is hG w).mp hw2⟩
  · rintro ⟨w, u, e, h⟩
    have hb := good_noBad hs
    rw [e] at hb ⊢
    exact ⟨u, (chk_sound (ex := []) ⟨3, true⟩ 60).1 _ [.any] ht w [] u hb ((eraseBut_nil _ _).mpr ((sameForm_is hG w).mpr h)) any_shas⟩

theorem end_alt {s : Strm} (hs : GoodStmt s) : (∃ r, (PForm.peek Tag.BAD).run (restOf s) = some r) ↔ restOf s = [] := by
  constructor
  · rintro ⟨r, h⟩
    have e := endsF_sound (.peek Tag.BAD) _ _ rfl (good_nested hs) (good_noBad hs) h
    subst e
    obtain ⟨w, hw, hw2⟩ := run_sound (.peek Tag.BAD) _ _ (good_nested hs) h
    have hw2 : w = [] := hw2
    rw [hw, hw2]; rfl
  · intro h
    rw [h]
    exact ⟨[], rfl⟩

/-- What an alternative can be: a whole statement, a beginning, or the end. -/
inductive AltKind where
  | whole (G : Form)
  | start (H : Form)
  | atEnd

def AltKind.Holds (ts : List Tok) : AltKind → Prop
  | .whole G => G.Is ts
  | .start H => BeginsWith H ts
  | .atEnd => ts = []

def AltKind.ok : AltKind → PForm → Bool
  | .whole G, A => endsF A && sameForm A.erase G && takesAll [] A
  | .start H, A => sameForm A.erase H && chk [] ⟨3, true⟩ 60 A [.any]
  | .atEnd, .peek t => t == Tag.BAD
  | .atEnd, _ => false

def altsOk : List AltKind → PForm → Bool
  | [], .never => true
  | k :: ks, .alt A B => k.ok A && altsOk ks B
  | _, _ => false

theorem altKind_sound {s : Strm} (hs : GoodStmt s) {k : AltKind} {A : PForm} (h : k.ok A = true) :
    (∃ r, A.run (restOf s) = some r) ↔ k.Holds (restOf s) := by
  cases k with
  | whole G =>
    rw [AltKind.ok, Bool.and_eq_true, Bool.and_eq_true] at h
    exact whole_alt h.1.1 h.1.2 h.2 hs
  | start H =>
    rw [AltKind.ok, Bool.and_eq_true] at h
    exact head_alt h.1 h.2 hs
  | atEnd =>
    cases A with
    | peek t =>
      have h : t = Tag.BAD := by simpa [AltKind.ok] using h
      subst h
      exact end_alt hs
    | _ => cases h

theorem altsOk_sound {s : Strm} (hs : GoodStmt s) : ∀ (ks : List AltKind) (F : PForm), altsOk ks F = true →
    ((∃ r, F.run (restOf s) = some r) ↔ ∃ k ∈ ks, k.Holds (restOf s))
  | [], F, h => by
    cases F with
    | never =>
      constructor
      · rintro ⟨r, h⟩; cases h
      · rintro ⟨k, h, _⟩; cases h
    | _ => cases h
  | k :: ks, F, h => by
    cases F with
    | alt A B =>
      rw [altsOk, Bool.and_eq_true] at h
      have h1 := altKind_sound hs h.1
      have h2 := altsOk_sound hs ks B h.2
      rw [List.exists_mem_cons_iff, ← h1, ← h2]
      constructor
      · rintro ⟨r, h⟩
        rw [PForm.run] at h
        cases hA : A.run (restOf s) with
        | some r' => exact .inl ⟨r', rfl⟩
        | none => rw [hA] at h; exact .inr ⟨r, h⟩
      · rintro (⟨r, h⟩ | ⟨r, h⟩)
        · exact ⟨r, by rw [PForm.run, h]⟩
        · cases hA : A.run (restOf s) with
          | some r' => exact ⟨r', by rw [PForm.run, hA]⟩
          | none => exact ⟨r, by rw [PForm.run, hA]; exact h⟩
    | _ => cases h

/-- The rule for the tag has these alternatives. -/
def looseRow (tag : Int) (ks : List AltKind) : Bool :=
  match formFor tag with
  | none => false
  | some F => altsOk ks F

theorem looseRow_sound {x : Exts} (hx : GoodExts x) (hf : x.Forward) {tag : Int} {ks : List AltKind} (h : looseRow tag ks = true)
    {s : Strm} (hs : GoodStmt s) : Recognised x tag s ↔ ∃ k ∈ ks, k.Holds (restOf s) := by
  rw [looseRow] at h
  cases hF : formFor tag with
  | none => rw [hF] at h; cases h
  | some F =>
    rw [hF] at h
    rw [recognised_run hx hf hF hs]
    exact altsOk_sound hs ks F h

/-- C86: an import statement is recognised exactly if it has the form of the standard, or begins with `import, none`
or `import, all`, or is empty. -/
theorem C86_import (x : Exts) (hx : GoodExts x) (hf : x.Forward) (s : Strm) (hs : GoodStmt s) :
    Recognised x Tag.SG_IMPORT_STMT s ↔ Std.importStmt.Is (restOf s) ∨ BeginsWith importAll (restOf s) ∨ restOf s = [] := by
  rw [looseRow_sound hx hf (tag := Tag.SG_IMPORT_STMT)
    (ks := [.whole (.seqs [.word Tag.KW_IMPORT, .opt (.seqs [.opt (.word Tag.TK_DBL_COLON), .list .name])]),
      .whole (.seqs [.word Tag.KW_IMPORT, .word Tag.TK_COMMA, .word Tag.KW_ONLY, .word Tag.TK_COLON, .list .name]),
      .start importAll, .atEnd]) (by decide +kernel) hs]
  simp only [List.exists_mem_cons_iff, AltKind.Holds, List.not_mem_nil, false_and, exists_false, or_false]
  constructor
  · rintro (h | h | h | h)
    · exact .inl (.inl h)
    · exact .inl (.inr (.inl h))
    · exact .inr (.inl h)
    · exact .inr (.inr h)
  · rintro (h | h | h)
    · rcases h with h | h | h | h
      · exact .inl h
      · exact .inr (.inl h)
      · exact .inr (.inr (.inl ⟨_, [], (List.append_nil _).symm, h⟩))
      · exact h.elim
    · exact .inr (.inr (.inl h))
    · exact .inr (.inr (.inr h))

/-- C86: an interface statement is recognised exactly if it has the form of the standard, or begins with
`abstract interface`, or is empty. -/
theorem C86_interface (x : Exts) (hx : GoodExts x) (hf : x.Forward) (s : Strm) (hs : GoodStmt s) :
    Recognised x Tag.SG_INTERFACE_STMT s ↔ Std.interfaceStmt.Is (restOf s) ∨ BeginsWith abstractInterface (restOf s) ∨ restOf s = [] := by
  rw [looseRow_sound hx hf (tag := Tag.SG_INTERFACE_STMT)
    (ks := [.whole (.seqs [.word Tag.KW_INTERFACE, .opt Std.genericSpec]), .start abstractInterface, .atEnd]) (by decide +kernel) hs]
  simp only [List.exists_mem_cons_iff, AltKind.Holds, List.not_mem_nil, false_and, exists_false, or_false]
  constructor
  · rintro (h | h | h)
    · exact .inl (.inl h)
    · exact .inr (.inl h)
    · exact .inr (.inr h)
  · rintro (h | h | h)
    · rcases h with h | h | h
      · exact .inl h
      · exact .inr (.inl ⟨_, [], (List.append_nil _).symm, h⟩)
      · exact h.elim
    · exact .inr (.inl h)
    · exact .inr (.inr h)

/-- The code of a macro statement behind the checks of the first token. -/
def macroRest : PForm := .seq .name (.seq .group (.seq (.peek Tag.BAD) .eps))

theorem macro_form : formFor Tag.SG_MACRO_STMT = some (.seq (.notPeek Tag.KW_ASSOCIATE) (.seq (.notPeek Tag.KW_WHERE)
    (.seq (.notPeek Tag.KW_FORALL) (.seq (.notPeek Tag.KW_CASE) macroRest)))) := by rfl

theorem notPeek_run {t : Int} {B : PForm} {ts r : List Tok} :
    (PForm.seq (.notPeek t) B).run ts = some r ↔ PForm.headTag ts ≠ t ∧ B.run ts = some r := by
  rw [PForm.run, PForm.run]
  by_cases h : PForm.headTag ts = t
  · rw [if_pos h]; simp [h]
  · rw [if_neg h]; simp [h]

/-- C86: a macro statement is recognised exactly if it is a name, other than `associate`, `where`, `forall` and `case`,
with anything in parentheses behind it. -/
theorem C86_macro (x : Exts) (hx : GoodExts x) (hf : x.Forward) (s : Strm) (hs : GoodStmt s) :
    Recognised x Tag.SG_MACRO_STMT s ↔ macroForm.Is (restOf s) := by
  rw [recognised_run hx hf macro_form hs]
  simp only [notPeek_run, exists_and_left]
  rw [whole_alt (A := macroRest) (G := .seq .name .group) (by decide +kernel) (by decide +kernel) (by decide +kernel) hs]
  constructor
  · rintro ⟨h1, h2, h3, h4, u, v, e, ⟨a, rfl, ha⟩, hg⟩
    rw [e] at h1 h2 h3 h4
    refine ⟨[a], v, e, ⟨a, rfl, ha, ?_⟩, hg⟩
    intro hm
    simp only [List.mem_cons, List.not_mem_nil, or_false] at hm
    rcases hm with hm | hm | hm | hm
    · exact h1 hm
    · exact h2 hm
    · exact h3 hm
    · exact h4 hm
  · rintro ⟨u, v, e, ⟨a, rfl, ha, hm⟩, hg⟩
    rw [e]
    simp only [List.mem_cons, List.not_mem_nil, or_false, not_or] at hm
    exact ⟨hm.1, hm.2.1, hm.2.2.1, hm.2.2.2, [a], v, rfl, ⟨a, rfl, ha⟩, hg⟩

/-- C86: a submodule statement is recognised exactly if it has the form of the standard without its last part, the name
of the submodule. -/
theorem C86_submodule (x : Exts) (hx : GoodExts x) (hf : x.Forward) (s : Strm) (hs : GoodStmt s) :
    Recognised x Tag.SG_SUBMODULE_STMT s ↔ namelessSubmodule.Is (restOf s) := by
  have h1 : rowForm Tag.SG_SUBMODULE_STMT namelessSubmodule = true := by decide +kernel
  have h2 : rowTakes [] Tag.SG_SUBMODULE_STMT = true := by decide +kernel
  exact ⟨row_sound hx hf h1 hs, fun hw => row_complete hx hf h1 h2 hs ((but_nil _ _).mpr hw)⟩

/-- C86 fails for import statements as in the standard: whatever follows `import, none` or `import, all`, and the
empty statement, are recognised, and no statement of the form of the standard begins like that and goes on. -/
theorem C86_violation_import (x : Exts) (hx : GoodExts x) (hf : x.Forward) (s : Strm) (hs : GoodStmt s) (w u : List Tok)
    (hw : importAll.Is w) (hu : u ≠ []) (h : restOf s = w ++ u) :
    Recognised x Tag.SG_IMPORT_STMT s ∧ ¬ Std.importStmt.Is (restOf s) := by
  refine ⟨(C86_import x hx hf s hs).mpr (.inr (.inl ⟨w, u, h, hw⟩)), ?_⟩
  rw [h]
  obtain ⟨k, i, c, rfl, hc, hk⟩ : ∃ k i c : Tok, w = [i, c, k] ∧ c.token = Tag.TK_COMMA ∧ (k.token = Tag.KW_NONE ∨ k.token = Tag.KW_ALL) := by
    obtain ⟨_, _, rfl, ⟨i, rfl, hi⟩, _, _, rfl, ⟨c, rfl, hc⟩, _, _, rfl, hk, rfl⟩ := hw
    rcases hk with ⟨k, rfl, hk⟩ | ⟨k, rfl, hk⟩ | hk
    · exact ⟨k, i, c, rfl, hc, .inl hk⟩
    · exact ⟨k, i, c, rfl, hc, .inr hk⟩
    · exact hk.elim
  rintro (h | h | h | h)
  · obtain ⟨_, _, e, ⟨a, rfl, ha⟩, _, _, rfl, h, rfl⟩ := h
    injection e with _ e
    rcases h with ⟨p, q, rfl, hp, q1, q2, rfl, ⟨n1, n2, rfl, ⟨n, rfl, hn⟩, _⟩, rfl⟩ | h
    · rcases hp with ⟨d, rfl, hd⟩ | hp
      · injection e with e _
        rw [← e, hc] at hd
        exact absurd hd (by decide)
      · have hp : p = [] := hp
        subst hp
        injection e with e _
        rw [← e, hc] at hn
        exact absurd hn (by decide)
    · have h : _ = [] := h
      rw [h] at e
      cases e
  · obtain ⟨_, _, e, ⟨a, rfl, ha⟩, _, _, rfl, ⟨b, rfl, hb⟩, _, _, rfl, ⟨o, rfl, ho⟩, _⟩ := h
    injection e with _ e
    injection e with _ e
    injection e with e _
    rw [← e] at ho
    rcases hk with hk | hk <;> (rw [hk] at ho; exact absurd ho (by decide))
  · obtain ⟨_, _, e, ⟨a, rfl, ha⟩, _, _, rfl, ⟨b, rfl, hb⟩, _, _, rfl, ho, rfl⟩ := h
    injection e with _ e
    injection e with _ e
    rcases ho with ⟨o, rfl, _⟩ | ⟨o, rfl, _⟩ | ho
    · injection e with _ e
      exact hu e
    · injection e with _ e
      exact hu e
    · exact ho.elim
  · exact h.elim

/-- C86 fails for interface statements in the same way, behind `abstract interface`. -/
theorem C86_violation_interface (x : Exts) (hx : GoodExts x) (hf : x.Forward) (s : Strm) (hs : GoodStmt s) (w u : List Tok)
    (hw : abstractInterface.Is w) (hu : u ≠ []) (h : restOf s = w ++ u) :
    Recognised x Tag.SG_INTERFACE_STMT s ∧ ¬ Std.interfaceStmt.Is (restOf s) := by
  refine ⟨(C86_interface x hx hf s hs).mpr (.inr (.inl ⟨w, u, h, hw⟩)), ?_⟩
  rw [h]
  obtain ⟨_, _, rfl, ⟨i, rfl, hi⟩, _, _, rfl, ⟨c, rfl, hc⟩, rfl⟩ := hw
  rintro (h | h | h)
  · obtain ⟨_, _, e, ⟨a, rfl, ha⟩, _⟩ := h
    injection e with e _
    rw [← e, hi] at ha
    exact absurd ha (by decide)
  · obtain ⟨_, _, e, ⟨a, rfl, ha⟩, _, _, rfl, ⟨b, rfl, hb⟩, rfl⟩ := h
    injection e with _ e
    injection e with _ e
    exact hu e
  · exact h.elim

/-- C86 fails for the empty statement, which both parsers take for one of theirs. -/
theorem C86_violation_empty (x : Exts) (hx : GoodExts x) (hf : x.Forward) (s : Strm) (hs : GoodStmt s) (h : restOf s = []) :
    Recognised x Tag.SG_IMPORT_STMT s ∧ Recognised x Tag.SG_INTERFACE_STMT s ∧ ¬ Recognised x Tag.SG_MACRO_STMT s ∧
      ¬ Recognised x Tag.SG_SUBMODULE_STMT s := by
  refine ⟨(C86_import x hx hf s hs).mpr (.inr (.inr h)), (C86_interface x hx hf s hs).mpr (.inr (.inr h)), ?_, ?_⟩
  · rw [C86_macro x hx hf s hs, h]
    rintro ⟨u, v, e, ⟨a, rfl, _⟩, _⟩
    cases e
  · rw [C86_submodule x hx hf s hs, h]
    rintro ⟨u, v, e, ⟨a, rfl, _⟩, _⟩
    cases e

/-! ### Examples -/

/-- `import, none x`, properly nested and with something behind the form. -/
example : ∃ s w u, GoodStmt s ∧ importAll.Is w ∧ u ≠ [] ∧ restOf s = w ++ u :=
  ⟨lineOf [Tag.KW_IMPORT, Tag.TK_COMMA, Tag.KW_NONE, Tag.TK_NAME], [tokOf Tag.KW_IMPORT, tokOf Tag.TK_COMMA, tokOf Tag.KW_NONE],
    [tokOf Tag.TK_NAME], good_of (goodTags_of (by decide +kernel)) (.plain ⟨by decide, by decide, by decide, by decide⟩ <|
      .plain ⟨by decide, by decide, by decide, by decide⟩ <| .plain ⟨by decide, by decide, by decide, by decide⟩ <|
      .plain ⟨by decide, by decide, by decide, by decide⟩ .nil),
    ⟨[_], _, rfl, ⟨_, rfl, rfl⟩, [_], _, rfl, ⟨_, rfl, rfl⟩, [_], [], rfl, .inl ⟨_, rfl, rfl⟩, rfl⟩, by simp, rfl⟩

/-- `abstract interface x`. -/
example : ∃ s w u, GoodStmt s ∧ abstractInterface.Is w ∧ u ≠ [] ∧ restOf s = w ++ u :=
  ⟨lineOf [Tag.KW_ABSTRACT, Tag.KW_INTERFACE, Tag.TK_NAME], [tokOf Tag.KW_ABSTRACT, tokOf Tag.KW_INTERFACE],
    [tokOf Tag.TK_NAME], good_of (goodTags_of (by decide +kernel)) (.plain ⟨by decide, by decide, by decide, by decide⟩ <|
      .plain ⟨by decide, by decide, by decide, by decide⟩ <| .plain ⟨by decide, by decide, by decide, by decide⟩ .nil),
    ⟨[_], _, rfl, ⟨_, rfl, rfl⟩, [_], [], rfl, ⟨_, rfl, rfl⟩, rfl⟩, by simp, rfl⟩

/-- `assert(x)` has the form of a macro statement. -/
example : ∃ s, GoodStmt s ∧ macroForm.Is (restOf s) :=
  ⟨lineOf [Tag.TK_NAME, Tag.TK_PARENL, Tag.TK_NAME, Tag.TK_PARENR],
    good_of (goodTags_of (by decide +kernel)) (.plain ⟨by decide, by decide, by decide, by decide⟩ <|
      .paren (a := [Tag.TK_NAME]) (b := []) (.plain ⟨by decide, by decide, by decide, by decide⟩ .nil) .nil),
    [tokOf Tag.TK_NAME], _, rfl, ⟨_, rfl, .inl rfl, by decide⟩, [Tag.TK_NAME], .plain ⟨by decide, by decide, by decide, by decide⟩ .nil, rfl⟩

end SP
end FLPR
