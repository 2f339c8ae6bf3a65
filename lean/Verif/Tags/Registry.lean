import Verif.Tags.Defs
import Verif.FileLine.Lemmas
/-!
# `Syntax_Tags` (src/flpr/Syntax_Tags.hh, Syntax_Tags.cc): model and properties (C36)
-/

namespace FLPR

/-- Syntax_Tags.hh:50-54 `Ext_Record`; a record of type -1 is empty. -/
structure ExtRecord where
  label : Str := []
  type : Int := -1
  deriving DecidableEq, Repr

/-- Syntax_Tags.cc:5 `extensions_`. -/
abbrev Registry := List ExtRecord

namespace Registry

/-- The built-in part of a table lookup `strings_[tag]`, `types_[tag]`: undefined outside of the
table. -/
def builtin (tag : Int) : Res (Str × Int) :=
  if 0 ≤ tag then
    match Tag.table[tag.toNat]? with
    | some e => .ok (e.1.toList, e.2)
    | none => .error .ub
  else .error .ub

/-- Syntax_Tags.hh:60-68 `get_ext_idx_`. -/
def getExtIdx (r : Registry) (tag : Int) : Int :=
  if tag < Tag.CLIENT_EXTENSION then -2
  else
    match r[(tag - Tag.CLIENT_EXTENSION).toNat]? with
    | none => -1
    | some e => if e.type = -1 then -1 else tag - Tag.CLIENT_EXTENSION

/-- Syntax_Tags.cc:7-17 `label`. -/
def label (r : Registry) (tag : Int) : Res Str :=
  let i := r.getExtIdx tag
  if i = -2 then do
    let e ← builtin tag
    .ok e.1
  else if i = -1 then
    .ok ("<client-extension+".toList ++ (toString (tag - Tag.CLIENT_EXTENSION)).toList ++ ['>'])
  else
    match r[i.toNat]? with
    | some e => .ok e.label
    | none => .error .ub

/-- Syntax_Tags.cc:19-26 `type`. -/
def type (r : Registry) (tag : Int) : Res Int :=
  let i := r.getExtIdx tag
  if i = -2 then do
    let e ← builtin tag
    .ok e.2
  else if i = -1 then .ok 4
  else
    match r[i.toNat]? with
    | some e => .ok e.type
    | none => .error .ub

/-- Syntax_Tags.hh:45 `is_keyword`. -/
def isKeyword (r : Registry) (tag : Int) : Res Bool := do
  let t ← r.type tag
  .ok (t == 4)

/-- Syntax_Tags.hh:37-39 `is_name`. -/
def isName (tag : Int) : Res Bool :=
  if tag = Tag.TK_NAME then .ok true
  else do
    let e ← builtin tag
    .ok (e.2 == 4)

/-- Syntax_Tags.cc:28-39 `register_ext`. -/
def register (r : Registry) (tag : Int) (lab : Str) (ty : Int) : Res Registry :=
  if tag ≥ Tag.CLIENT_EXTENSION then
    let i := (tag - Tag.CLIENT_EXTENSION).toNat
    let r' := if r.length ≤ i then r ++ List.replicate (i + 1 - r.length) {} else r
    match r'[i]? with
    | none => .error .ub
    | some e => if e.type = -1 then .ok (r'.set i { label := lab, type := ty }) else .error .assertion
  else .error .assertion

/-- A registration request. -/
structure Req where
  tag : Int
  label : Str
  type : Int
  deriving DecidableEq

/-- A history of registrations. -/
def runAll (r : Registry) : List Req → Res Registry
  | [] => .ok r
  | q :: qs => do
    let r' ← r.register q.tag q.label q.type
    runAll r' qs

end Registry
open Registry

namespace Spec

/-- The record that answers for an extension tag after a history of registrations. -/
def answer (qs : List Req) (tag : Int) : Option Req := qs.find? (fun q => q.tag == tag)

/-- What a program asks for: tags from the client range, with a type other than the marker of an
empty record, each tag once. -/
def Proper : List Req → Prop
  | [] => True
  | q :: qs => Tag.CLIENT_EXTENSION ≤ q.tag ∧ q.type ≠ -1 ∧ (∀ p ∈ qs, p.tag ≠ q.tag) ∧ Proper qs

end Spec
open Spec

/-- What is recorded for a client tag. -/
def Registry.recOf (r : Registry) (tag : Int) : ExtRecord :=
  (r[(tag - Tag.CLIENT_EXTENSION).toNat]?).getD {}

theorem getExtIdx_client (r : Registry) (tag : Int) (h : Tag.CLIENT_EXTENSION ≤ tag) :
    r.getExtIdx tag = if (r.recOf tag).type = -1 then -1 else tag - Tag.CLIENT_EXTENSION := by
  unfold getExtIdx recOf
  rw [if_neg (by omega)]
  cases r[(tag - Tag.CLIENT_EXTENSION).toNat]? <;> simp

theorem recOf_some (r : Registry) (tag : Int) (h : (r.recOf tag).type ≠ -1) :
    r[(tag - Tag.CLIENT_EXTENSION).toNat]? = some (r.recOf tag) := by
  unfold recOf at *
  cases hr : r[(tag - Tag.CLIENT_EXTENSION).toNat]? with
  | none => rw [hr] at h; simp at h
  | some e => simp

/-- `label` and `type` of a client tag depend only on its record. -/
theorem queries_client (r : Registry) (tag : Int) (h : Tag.CLIENT_EXTENSION ≤ tag) :
    r.label tag = .ok (if (r.recOf tag).type = -1 then "<client-extension+".toList ++
      (toString (tag - Tag.CLIENT_EXTENSION)).toList ++ ['>'] else (r.recOf tag).label) ∧
    r.type tag = .ok (if (r.recOf tag).type = -1 then 4 else (r.recOf tag).type) := by
  unfold label type
  rw [getExtIdx_client r tag h]
  by_cases ht : (r.recOf tag).type = -1
  · simp [ht]
  · simp only [ht, if_false]
    have h0 : 0 ≤ tag - Tag.CLIENT_EXTENSION := by omega
    rw [if_neg (by omega), if_neg (by omega), if_neg (by omega), if_neg (by omega),
      recOf_some r tag ht]
    simp

theorem queries_builtin (r : Registry) (tag : Int) (h : tag < Tag.CLIENT_EXTENSION) :
    r.label tag = (builtin tag).map (·.1) ∧ r.type tag = (builtin tag).map (·.2) := by
  unfold label type getExtIdx
  simp only [h, if_true]
  cases builtin tag <;> simp [Except.map]

/-- `register` in terms of records. -/
theorem register_spec (r : Registry) (tag : Int) (lab : Str) (ty : Int) :
    (Tag.CLIENT_EXTENSION ≤ tag ∧ (r.recOf tag).type = -1 ∧ ∃ r', r.register tag lab ty = .ok r' ∧
      r'.recOf tag = { label := lab, type := ty } ∧
      ∀ t, Tag.CLIENT_EXTENSION ≤ t → t ≠ tag → r'.recOf t = r.recOf t) ∨
    ((tag < Tag.CLIENT_EXTENSION ∨ (r.recOf tag).type ≠ -1) ∧
      r.register tag lab ty = .error .assertion) := by
  unfold register
  by_cases h : tag ≥ Tag.CLIENT_EXTENSION
  · rw [if_pos h]
    dsimp only
    generalize hi : (tag - Tag.CLIENT_EXTENSION).toNat = i
    have grow : ∀ j : Nat, ((if r.length ≤ i then r ++ List.replicate (i + 1 - r.length) ({} : ExtRecord)
        else r)[j]?).getD ({} : ExtRecord) = (r[j]?).getD {} := by
      intro j
      split
      · by_cases hj : j < r.length
        · rw [List.getElem?_append_left hj]
        · rw [List.getElem?_append_right (by omega), List.getElem?_eq_none (l := r) (by omega),
            List.getElem?_replicate]
          split <;> rfl
      · rfl
    have hlt : i < (if r.length ≤ i then r ++ List.replicate (i + 1 - r.length) ({} : ExtRecord)
        else r).length := by
      split
      · simp; omega
      · omega
    generalize hr' : (if r.length ≤ i then r ++ List.replicate (i + 1 - r.length) ({} : ExtRecord)
        else r) = r'
      at grow hlt
    have hrec : r'[i] = r.recOf tag := by
      have := grow i
      rw [List.getElem?_eq_getElem hlt] at this
      simpa [recOf, hi] using this
    rw [List.getElem?_eq_getElem hlt]
    simp only [hrec]
    by_cases ht : (r.recOf tag).type = -1
    · left
      refine ⟨h, ht, _, by rw [if_pos ht], ?_, ?_⟩
      · simp [recOf, hi, hlt]
      · intro t h1 h2
        have hne : i ≠ (t - Tag.CLIENT_EXTENSION).toNat := by omega
        unfold recOf
        rw [List.getElem?_set_ne hne]
        exact grow _
    · right
      exact ⟨Or.inr ht, by rw [if_neg ht]⟩
  · right
    exact ⟨Or.inl (by omega), by rw [if_neg h]⟩

/-- **C36** (one registration) A registration succeeds exactly for a tag of the client range that
has no record yet; no built-in tag is in that range.  Then the label and type given are those
reported for the tag, and the reports for all other tags are as before. -/
theorem C36_register (r : Registry) (tag : Int) (lab : Str) (ty : Int) (hty : ty ≠ -1) :
    (∃ r', r.register tag lab ty = .ok r' ∧ Tag.CLIENT_EXTENSION ≤ tag ∧
      (r.recOf tag).type = -1 ∧
      r'.label tag = .ok lab ∧ r'.type tag = .ok ty ∧
      ∀ t, t ≠ tag → r'.label t = r.label t ∧ r'.type t = r.type t) ∨
    ((tag < Tag.CLIENT_EXTENSION ∨ (r.recOf tag).type ≠ -1) ∧
      r.register tag lab ty = .error .assertion) := by
  rcases register_spec r tag lab ty with ⟨h1, h2, r', h3, h4, h5⟩ | h
  · left
    refine ⟨r', h3, h1, h2, ?_, ?_, ?_⟩
    · rw [(queries_client r' tag h1).1, h4]; simp [hty]
    · rw [(queries_client r' tag h1).2, h4]; simp [hty]
    · intro t ht
      by_cases hc : Tag.CLIENT_EXTENSION ≤ t
      · rw [(queries_client r' t hc).1, (queries_client r' t hc).2, (queries_client r t hc).1,
          (queries_client r t hc).2, h5 t hc ht]
        exact ⟨rfl, rfl⟩
      · have hc' : t < Tag.CLIENT_EXTENSION := by omega
        rw [(queries_builtin r' t hc').1, (queries_builtin r' t hc').2, (queries_builtin r t hc').1,
          (queries_builtin r t hc').2]
        exact ⟨rfl, rfl⟩
  · exact Or.inr h

/-- **C36** (histories) Every proper history of registrations succeeds.  Afterwards each registered
tag reports its own label and type, every other client tag reports the default, and built-in tags
report the table. -/
theorem C36_history (qs : List Req) (h : Proper qs) :
    ∃ r, runAll [] qs = .ok r ∧
      (∀ q ∈ qs, r.label q.tag = .ok q.label ∧ r.type q.tag = .ok q.type) ∧
      (∀ t, Tag.CLIENT_EXTENSION ≤ t → (∀ q ∈ qs, q.tag ≠ t) → r.type t = .ok 4 ∧
        r.label t = .ok ("<client-extension+".toList ++
          (toString (t - Tag.CLIENT_EXTENSION)).toList ++ ['>'])) ∧
      (∀ t, 0 ≤ t → t < Tag.CLIENT_EXTENSION → ∃ e, Tag.table[t.toNat]? = some e ∧
        r.label t = .ok e.1.toList ∧ r.type t = .ok e.2) := by
  have gen : ∀ (qs : List Req) (r : Registry), Proper qs → (∀ q ∈ qs, (r.recOf q.tag).type = -1) →
      ∃ r', runAll r qs = .ok r' ∧
        (∀ q ∈ qs, r'.recOf q.tag = { label := q.label, type := q.type } ∧ q.type ≠ -1 ∧
          Tag.CLIENT_EXTENSION ≤ q.tag) ∧
        (∀ t, Tag.CLIENT_EXTENSION ≤ t → (∀ q ∈ qs, q.tag ≠ t) → r'.recOf t = r.recOf t) := by
    intro qs
    induction qs with
    | nil => intro r _ _; exact ⟨r, rfl, by simp, by simp⟩
    | cons q qs ih =>
      intro r hp he
      obtain ⟨hp1, hp2, hp3, hp4⟩ := hp
      rcases register_spec r q.tag q.label q.type with ⟨h1, h2, r1, h3, h4, h5⟩ | ⟨h, _⟩
      · obtain ⟨r', hr', ha, hb⟩ := ih r1 hp4 (by
          intro p hpm
          have hc : Tag.CLIENT_EXTENSION ≤ p.tag := by
            clear ih he h3
            induction qs with
            | nil => simp at hpm
            | cons x xs ih2 =>
              rcases List.mem_cons.mp hpm with rfl | hpm
              · exact hp4.1
              · exact ih2 (fun y hy => hp3 y (by simp [hy])) hp4.2.2.2 hpm
          rw [h5 p.tag hc (hp3 p hpm)]
          exact he p (by simp [hpm]))
        refine ⟨r', ?_, ?_, ?_⟩
        · unfold runAll; rw [h3]; exact hr'
        · intro p hpm
          rcases List.mem_cons.mp hpm with rfl | hpm
          · refine ⟨?_, hp2, hp1⟩
            rw [hb p.tag hp1 hp3, h4]
          · exact ha p hpm
        · intro t ht hne
          rw [hb t ht (fun p hpm => hne p (by simp [hpm])),
            h5 t ht (fun e => hne q (by simp) e.symm)]
      · rcases h with h | h
        · omega
        · exact absurd (he q (by simp)) h
  obtain ⟨r, hr, ha, hb⟩ := gen qs [] h (by simp [recOf])
  refine ⟨r, hr, ?_, ?_, ?_⟩
  · intro q hq
    obtain ⟨h1, h2, h3⟩ := ha q hq
    rw [(queries_client r q.tag h3).1, (queries_client r q.tag h3).2, h1]
    simp [h2]
  · intro t ht hne
    have := hb t ht hne
    rw [(queries_client r t ht).1, (queries_client r t ht).2, this]
    simp [recOf]
  · intro t h0 ht
    have hlen : t.toNat < Tag.table.length := by
      have : Tag.table.length = 610 := by decide +kernel
      have : Tag.CLIENT_EXTENSION = 609 := rfl
      omega
    refine ⟨Tag.table[t.toNat], List.getElem?_eq_getElem hlen, ?_⟩
    rw [(queries_builtin r t ht).1, (queries_builtin r t ht).2]
    unfold builtin
    rw [if_pos h0, List.getElem?_eq_getElem hlen]
    exact ⟨rfl, rfl⟩

example : Proper [⟨609, "a".toList, 1⟩, ⟨612, "b".toList, 5⟩] := by
  simp [Proper, Tag.CLIENT_EXTENSION]

/-- A tag used twice fails an assertion. -/
theorem C36_register_twice (r r' : Registry) (tag : Int) (l1 l2 : Str) (t1 t2 : Int) (h1 : t1 ≠ -1)
    (h : r.register tag l1 t1 = .ok r') : r'.register tag l2 t2 = .error .assertion := by
  rcases register_spec r tag l1 t1 with ⟨hc, _, r1, h3, h4, _⟩ | ⟨_, h3⟩
  · rw [h] at h3
    obtain rfl : r' = r1 := by simpa using h3
    rcases register_spec r' tag l2 t2 with ⟨_, h6, _⟩ | ⟨_, h6⟩
    · rw [h4] at h6; exact absurd h6 h1
    · exact h6
  · rw [h] at h3; simp at h3

/-- **C36** (`is_name`) On built-in tags `is_name` holds exactly for `TK_NAME` and the keywords.
Missing from the full claim: client tags, where the code reads past its table (below). -/
theorem C36_is_name_partial (r : Registry) (tag : Int) (h0 : 0 ≤ tag)
    (h1 : tag < Tag.CLIENT_EXTENSION) :
    ∃ b, isName tag = .ok b ∧ ∃ k, r.isKeyword tag = .ok k ∧
      (b = true ↔ tag = Tag.TK_NAME ∨ k = true) := by
  have hlen : tag.toNat < Tag.table.length := by
    have : Tag.table.length = 610 := by decide +kernel
    have : Tag.CLIENT_EXTENSION = 609 := rfl
    omega
  have hb : builtin tag = .ok (Tag.table[tag.toNat].1.toList, Tag.table[tag.toNat].2) := by
    unfold builtin
    rw [if_pos h0, List.getElem?_eq_getElem hlen]
  have hk : r.isKeyword tag = .ok (Tag.table[tag.toNat].2 == 4) := by
    unfold isKeyword
    rw [(queries_builtin r tag h1).2, hb]
    rfl
  unfold isName
  by_cases hn : tag = Tag.TK_NAME
  · exact ⟨true, by rw [if_pos hn], _, hk, by simp [hn]⟩
  · refine ⟨_, by rw [if_neg hn, hb]; rfl, _, hk, by simp [hn]⟩

/-- `is_name` on a registered client tag reads past the end of the table; on the first client tag it
answers from the table entry of the end marker, against what was registered. -/
theorem C36_is_name_violation :
    (∃ r, runAll [] [⟨609, "K0".toList, 4⟩, ⟨610, "K1".toList, 4⟩] = .ok r ∧
      r.isKeyword 610 = .ok true ∧ isName 610 = .error .ub ∧
      r.isKeyword 609 = .ok true ∧ isName 609 = .ok false) :=
  ⟨_, rfl, by decide +kernel⟩

/-- A record registered with type -1 is reported as not registered. -/
theorem C36_register_violation :
    ∃ r r', Registry.register [] 609 "K".toList (-1) = .ok r ∧ r.label 609 ≠ .ok "K".toList ∧
      r.register 609 "L".toList 4 = .ok r' :=
  ⟨_, _, rfl, by decide +kernel, rfl⟩

end FLPR
