import Verif.StmtParser.Cursor
import Verif.StmtParser.FormSpec
import Verif.StmtParser.StreamProps
import Mathlib.Data.List.Basic
/-!
# C85: a token stream is a cursor in the tokens of a statement
-/

namespace FLPR
namespace Spec
open SP

/-- The tokens of the statement in front of the cursor. -/
def beforeOf (s : Strm) : List Tok := (s.all.take s.pos).drop s.lo

/-- The tokens of the statement. -/
def sourceOf (s : Strm) : List Tok := (s.all.take s.hi).drop s.lo

/-- The cursor of a statement in a line stands in it. -/
structure Inside (s : Strm) : Prop where
  lo_pos : s.lo ≤ s.pos
  pos_hi : s.pos ≤ s.hi
  hi_len : s.hi ≤ s.all.length

/-- The tag of the first token, `BAD` for none. -/
def firstTag (ts : List Tok) : Int := (ts.head?.map (·.token)).getD Tag.BAD

/-- The tag of the last token, `BAD` for none. -/
def lastTag (ts : List Tok) : Int := (ts.getLast?.map (·.token)).getD Tag.BAD

/-- Two cursors on the same statement. -/
def SameSource (s s' : Strm) : Prop := s'.all = s.all ∧ s'.lo = s.lo ∧ s'.hi = s.hi

/-- A keyword becomes a name. -/
def plainName (r : Registry) (t : Tok) : Tok :=
  if r.isKeyword t.token = .ok true then { t with token := Tag.TK_NAME } else t

end Spec

namespace SP
open Spec

theorem restOf_len {s : Strm} (h : Inside s) : (restOf s).length = s.hi - s.pos := by
  have := h.hi_len
  unfold restOf
  rw [List.length_drop, List.length_take]
  omega

theorem beforeOf_len {s : Strm} (h : Inside s) : (beforeOf s).length = s.pos - s.lo := by
  have h1 := h.hi_len
  have h2 := h.pos_hi
  unfold beforeOf
  rw [List.length_drop, List.length_take]
  omega

theorem derefTok_at {all : List Tok} {i : Nat} (h : i < all.length) : derefTok all i = .ok all[i] := by
  rw [derefTok, if_pos h, List.getD_eq_getElem?_getD, List.getElem?_eq_getElem h]
  rfl

theorem restOf_get {s : Strm} {k : Nat} (hk : s.pos + k < s.hi) :
    (restOf s)[k]? = s.all[s.pos + k]? := by
  unfold restOf
  rw [List.getElem?_drop, List.getElem?_take_of_lt hk]

/-- C85: the tokens of the statement are those in front of the cursor and those behind it. -/
theorem C85_source (s : Strm) (h : Inside s) : sourceOf s = beforeOf s ++ restOf s := by
  have h1 := h.lo_pos
  have h2 := h.pos_hi
  unfold sourceOf beforeOf restOf
  have e : s.all.take s.pos = (s.all.take s.hi).take s.pos := by rw [List.take_take, Nat.min_eq_left h2]
  have e3 : ((s.all.take s.hi).take s.pos).drop s.lo = ((s.all.take s.hi).drop s.lo).take (s.pos - s.lo) := List.drop_take
  have e2 : (s.all.take s.hi).drop s.pos = ((s.all.take s.hi).drop s.lo).drop (s.pos - s.lo) := by
    rw [List.drop_drop]
    congr 1
    omega
  rw [e, e3, e2, List.take_append_drop]

/-- C85: `peek()` is the tag of the next token, `curr()` of the one before, `peek_back()` of the last; `BAD`
where there is none. -/
theorem C85_look (s : Strm) (h : Inside s) :
    s.peek = .ok (firstTag (restOf s)) ∧ s.curr = .ok (lastTag (beforeOf s)) ∧ s.peekBack = .ok (lastTag (sourceOf s)) := by
  have h1 := h.lo_pos
  have h2 := h.pos_hi
  have h3 := h.hi_len
  refine ⟨?_, ?_, ?_⟩
  · rw [Strm.peek, firstTag]
    by_cases hp : s.pos = s.hi
    · have : restOf s = [] := List.length_eq_zero_iff.mp (by rw [restOf_len h]; omega)
      rw [if_pos hp, this]; rfl
    · rw [if_neg hp, derefTok_at (by omega), List.head?_eq_getElem?, restOf_get (by omega), Nat.add_zero,
        List.getElem?_eq_getElem (by omega)]
      rfl
  · rw [Strm.curr, Strm.currTT, lastTag]
    by_cases hp : s.pos = s.lo
    · have : beforeOf s = [] := List.length_eq_zero_iff.mp (by rw [beforeOf_len h]; omega)
      rw [if_neg (by simp [hp]), this]; rfl
    · rw [if_pos hp, if_neg (by omega), derefTok_at (by omega), List.getLast?_eq_getElem?, beforeOf_len h]
      unfold beforeOf
      rw [List.getElem?_drop, List.getElem?_take_of_lt (by omega), show s.lo + (s.pos - s.lo - 1) = s.pos - 1 by omega,
        List.getElem?_eq_getElem (by omega)]
      rfl
  · rw [Strm.peekBack, lastTag]
    by_cases hp : s.lo = s.hi
    · have : sourceOf s = [] := by
        unfold sourceOf
        apply List.length_eq_zero_iff.mp
        rw [List.length_drop, List.length_take]
        omega
      rw [if_pos hp, this]; rfl
    · have hl : (sourceOf s).length = s.hi - s.lo := by
        unfold sourceOf
        rw [List.length_drop, List.length_take]
        omega
      rw [if_neg hp, if_pos (by omega), derefTok_at (by omega), List.getLast?_eq_getElem?, hl]
      unfold sourceOf
      rw [List.getElem?_drop, List.getElem?_take_of_lt (by omega), show s.lo + (s.hi - s.lo - 1) = s.hi - 1 by omega,
        List.getElem?_eq_getElem (by omega)]
      rfl

/-- C85: `peek(k)` is the tag of the `k`th token behind the cursor, and `BAD` for the one behind the last.
Missing: a `k` beyond that, see `C85_violation_peek`. -/
theorem C85_peek_partial (s : Strm) (h : Inside s) (k : Nat) (hk : 1 ≤ k) (hle : k ≤ (restOf s).length + 1) :
    s.peekAt k = .ok (firstTag ((restOf s).drop (k - 1))) := by
  have h1 := h.lo_pos
  have h2 := h.pos_hi
  have h3 := h.hi_len
  rw [restOf_len h] at hle
  rw [Strm.peekAt, Strm.peekTT]
  rw [if_pos (by omega), firstTag]
  by_cases hp : s.pos + (k - 1) = s.hi
  · have : (restOf s).drop (k - 1) = [] := by
      apply List.drop_eq_nil_of_le
      rw [restOf_len h]
      omega
    rw [if_neg (by simp [hp]), this]; rfl
  · rw [if_pos hp, derefTok_at (by omega), List.head?_drop, restOf_get (by omega), List.getElem?_eq_getElem (by omega)]
    rfl

/-- C85 fails for `peek(k)` with more than one token too many: the comment says `BAD` at the end of the line,
but the token of the line at that place is given, which is no longer one of the statement. -/
theorem C85_violation_peek (s : Strm) (k : Nat) (_hk : 1 ≤ k) (hs : s.hi < s.pos + (k - 1)) (hl : s.pos + (k - 1) < s.all.length) :
    s.peekAt k = .ok (s.all[s.pos + (k - 1)]).token := by
  rw [Strm.peekAt, Strm.peekTT]
  rw [if_pos (by omega), if_pos (by omega), derefTok_at hl]
  rfl

/-- C85: `consume(n)` inside the statement takes `n` tokens from behind the cursor to in front of it. -/
theorem C85_consume (s : Strm) (h : Inside s) (n : Nat) (hn : n ≤ (restOf s).length) :
    ∃ s', s.consume n = .ok s' ∧ Inside s' ∧ SameSource s s' ∧ beforeOf s' = beforeOf s ++ (restOf s).take n ∧ restOf s' = (restOf s).drop n := by
  have h1 := h.lo_pos
  have h2 := h.pos_hi
  have h3 := h.hi_len
  rw [restOf_len h] at hn
  refine ⟨s.goto (s.pos + n), ?_, ⟨by show s.lo ≤ s.pos + n; omega, by show s.pos + n ≤ s.hi; omega, h3⟩, ⟨rfl, rfl, rfl⟩, ?_, ?_⟩
  · rw [Strm.consume, if_pos (by omega)]
  · show (s.all.take (s.pos + n)).drop s.lo = (s.all.take s.pos).drop s.lo ++ ((s.all.take s.hi).drop s.pos).take n
    rw [List.take_drop, List.take_take, Nat.min_eq_left (by omega)]
    have e : s.all.take (s.pos + n) = s.all.take s.pos ++ (s.all.take (s.pos + n)).drop s.pos := by
      have := (List.take_append_drop s.pos (s.all.take (s.pos + n))).symm
      rwa [List.take_take, Nat.min_eq_left (by omega)] at this
    conv_lhs => rw [e]
    rw [List.drop_append_of_le_length (by rw [List.length_take]; omega)]
  · show (s.all.take s.hi).drop (s.pos + n) = ((s.all.take s.hi).drop s.pos).drop n
    rw [List.drop_drop]

/-- C85 fails for `consume(n)` beyond the statement: there is no check, and the next `peek()` shows a token that
is not one of the statement. -/
theorem C85_violation_consume (s : Strm) (n : Nat) (hs : s.hi < s.pos + n) (hl : s.pos + n < s.all.length) :
    ∃ s', s.consume n = .ok s' ∧ s'.peek = .ok (s.all[s.pos + n]).token := by
  refine ⟨s.goto (s.pos + n), by rw [Strm.consume, if_pos (by omega)], ?_⟩
  rw [Strm.peek, if_neg (by show s.pos + n ≠ s.hi; omega)]
  show (derefTok s.all (s.pos + n) >>= _) = _
  rw [derefTok_at hl]
  rfl

/-- `put_back()`, a number of times. -/
def putBacks : Nat → Strm → Res Strm
  | 0, s => .ok s
  | n + 1, s => do
    let s' ← s.putBack
    putBacks n s'

/-- C85: `put_back()` at the beginning of the statement does nothing, and elsewhere it takes the last token in
front of the cursor back. -/
theorem C85_putBack (s : Strm) (h : Inside s) :
    ∃ s', s.putBack = .ok s' ∧ Inside s' ∧ SameSource s s' ∧ sourceOf s' = sourceOf s ∧ beforeOf s' = (beforeOf s).dropLast := by
  have h1 := h.lo_pos
  have h2 := h.pos_hi
  have h3 := h.hi_len
  rw [Strm.putBack]
  by_cases hp : s.pos = s.lo
  · have : beforeOf s = [] := List.length_eq_zero_iff.mp (by rw [beforeOf_len h]; omega)
    exact ⟨s, by rw [if_neg (by simp [hp])], h, ⟨rfl, rfl, rfl⟩, rfl, by rw [this]; rfl⟩
  · refine ⟨s.goto (s.pos - 1), by rw [if_pos hp, if_neg (by omega)],
      ⟨by show s.lo ≤ s.pos - 1; omega, by show s.pos - 1 ≤ s.hi; omega, h3⟩, ⟨rfl, rfl, rfl⟩, rfl, ?_⟩
    rw [List.dropLast_eq_take, beforeOf_len h]
    show (s.all.take (s.pos - 1)).drop s.lo = ((s.all.take s.pos).drop s.lo).take (s.pos - s.lo - 1)
    rw [List.take_drop, List.take_take, Nat.min_eq_left (by omega)]
    congr 2
    omega

/-- C85: what was consumed inside the statement can be put back, token by token. -/
theorem C85_undo (s : Strm) (h : Inside s) (n : Nat) (hn : n ≤ (restOf s).length) :
    ∃ s', s.consume n = .ok s' ∧ putBacks n s' = .ok s := by
  have h1 := h.lo_pos
  have h2 := h.pos_hi
  have h3 := h.hi_len
  rw [restOf_len h] at hn
  refine ⟨s.goto (s.pos + n), by rw [Strm.consume, if_pos (by omega)], ?_⟩
  clear hn
  induction n with
  | zero => rfl
  | succ n ih =>
    have e : (s.goto (s.pos + (n + 1))).putBack = .ok (s.goto (s.pos + n)) := by
      rw [Strm.putBack, if_pos (by show s.pos + (n + 1) ≠ s.lo; omega), if_neg (by show ¬ s.pos + (n + 1) = 0; omega)]
      rfl
    rw [putBacks, e]
    exact ih

/-- C85: `digest(n)` moves as `consume(n)` does, and the range that it gives has the tokens that it moved over. -/
theorem C85_digest (s : Strm) (h : Inside s) (n : Nat) (hn : n ≤ (restOf s).length) :
    ∃ b e s', s.digest n = .ok ((b, e), s') ∧ s.consume n = .ok s' ∧ (s.all.take e).drop b = (restOf s).take n := by
  have h1 := h.lo_pos
  have h2 := h.pos_hi
  have h3 := h.hi_len
  rw [restOf_len h] at hn
  have hc : s.consume n = .ok (s.goto (s.pos + n)) := by rw [Strm.consume, if_pos (by omega)]
  refine ⟨s.pos, s.pos + n, s.goto (s.pos + n), ?_, hc, ?_⟩
  · rw [Strm.digest, hc, Res.ok_bind, Strm.mkRange, if_pos ⟨by show s.pos ≤ s.pos + n; omega, by show s.pos + n ≤ s.all.length + 1; omega⟩]
    rfl
  · show (s.all.take (s.pos + n)).drop s.pos = ((s.all.take s.hi).drop s.pos).take n
    rw [List.take_drop, List.take_take, Nat.min_eq_left (by omega)]

/-- C85: `num_consumed()` is the number of tokens in front of the cursor; `rewind()` puts it before all tokens,
`consume_until_eol()` behind all of them; and `rewind(mark())` from anywhere in the line goes back to the mark. -/
theorem C85_places (s : Strm) (h : Inside s) :
    s.numConsumed = .ok ((beforeOf s).length : Int) ∧
    (beforeOf s.rewind = [] ∧ restOf s.rewind = sourceOf s ∧ s.rewind.numConsumed = .ok 0) ∧
    (restOf s.consumeUntilEol = [] ∧ beforeOf s.consumeUntilEol = sourceOf s) ∧
    ∀ s', SameSource s s' → s'.rewindTo s.mark = s := by
  have h1 := h.lo_pos
  have h2 := h.pos_hi
  have h3 := h.hi_len
  refine ⟨by rw [Strm.numConsumed, if_pos h1, beforeOf_len h], ⟨?_, rfl, ?_⟩, ⟨?_, rfl⟩, ?_⟩
  · show (s.all.take s.lo).drop s.lo = []
    apply List.drop_eq_nil_of_le
    rw [List.length_take]
    omega
  · rw [Strm.numConsumed, if_pos (by exact le_refl _)]
    simp [Strm.rewind]
  · show (s.all.take s.hi).drop s.hi = []
    apply List.drop_eq_nil_of_le
    rw [List.length_take]
    omega
  · rintro s' ⟨e1, e2, e3⟩
    cases s
    cases s'
    simp_all [Strm.rewindTo, Strm.mark, Strm.goto]

/-- C85: `is_eol()` says yes exactly at the end of the statement and in front of a semicolon, which it takes. -/
theorem C85_eol (s : Strm) (h : Inside s) :
    (restOf s = [] → s.isEol = .ok (true, s)) ∧
    (firstTag (restOf s) = Tag.TK_SEMICOLON → ∃ s', s.isEol = .ok (true, s') ∧ s.consume 1 = .ok s') ∧
    (restOf s ≠ [] → firstTag (restOf s) ≠ Tag.TK_SEMICOLON → s.isEol = .ok (false, s)) := by
  have h1 := h.lo_pos
  have h2 := h.pos_hi
  have h3 := h.hi_len
  have hlen := restOf_len h
  have hnil : s.pos = s.hi → restOf s = [] := fun hp => List.length_eq_zero_iff.mp (by omega)
  have hle : s.pos + 1 ≤ s.all.length + 1 := by omega
  have hpk : s.pos ≠ s.hi → ∃ t, derefTok s.all s.pos = .ok t ∧ firstTag (restOf s) = t.token := by
    intro hp
    refine ⟨s.all[s.pos]'(by omega), derefTok_at (by omega), ?_⟩
    rw [firstTag, List.head?_eq_getElem?, restOf_get (by omega), Nat.add_zero, List.getElem?_eq_getElem (by omega)]
    rfl
  refine ⟨?_, ?_, ?_⟩
  · intro e
    rw [e] at hlen
    simp at hlen
    rw [Strm.isEol, if_neg (by omega)]
  · intro e
    have hp : s.pos ≠ s.hi := by
      intro hp
      have := hnil hp
      rw [this] at e
      exact absurd e (by decide)
    obtain ⟨t, g1, g2⟩ := hpk hp
    refine ⟨s.goto (s.pos + 1), ?_, by rw [Strm.consume, if_pos hle]⟩
    rw [Strm.isEol, if_pos hp, g1, Res.ok_bind, if_pos (by rw [← g2, e])]
  · intro e1 e2
    have hp : s.pos ≠ s.hi := by
      intro hp
      exact e1 (hnil hp)
    obtain ⟨t, g1, g2⟩ := hpk hp
    rw [Strm.isEol, if_pos hp, g1, Res.ok_bind, if_neg (by rw [← g2]; exact e2)]

/-- C85: `is_eol()` is not a plain question, as its comment notes: in front of a semicolon with something other than a semicolon behind
it, it says yes, and when it is asked again, no. -/
theorem C85_eol_twice (s : Strm) (h : Inside s) (a b : Tok) (ts : List Tok) (hr : restOf s = a :: b :: ts)
    (ha : a.token = Tag.TK_SEMICOLON) (hb : b.token ≠ Tag.TK_SEMICOLON) :
    ∃ s', s.isEol = .ok (true, s') ∧ s'.isEol = .ok (false, s') := by
  obtain ⟨s', e1, e2⟩ := (C85_eol s h).2.1 (by rw [hr]; exact ha)
  obtain ⟨s'', g1, g2, _, _, g3⟩ := C85_consume s h 1 (by rw [hr]; simp)
  rw [g1] at e2
  injection e2 with e2
  subst e2
  rw [hr] at g3
  have g3 : restOf s'' = b :: ts := g3
  exact ⟨s'', e1, (C85_eol s'' g2).2.2 (by rw [g3]; simp) (by rw [g3]; exact hb)⟩

/-- What `consume()` makes current. -/
theorem next_curr {s : Strm} (h : Inside s) {a : Tok} {ts : List Tok} (hr : restOf s = a :: ts) :
    s.consume 1 = .ok (s.goto (s.pos + 1)) ∧ (s.goto (s.pos + 1)).currTT = .ok a := by
  have h1 := h.lo_pos
  have h2 := h.pos_hi
  have h3 := h.hi_len
  have hlen := restOf_len h
  rw [hr, List.length_cons] at hlen
  refine ⟨by rw [Strm.consume, if_pos (by omega)], ?_⟩
  have hg := restOf_get (s := s) (k := 0) (by omega)
  rw [hr] at hg
  rw [Strm.currTT, if_pos (by show s.pos + 1 ≠ s.lo; omega), if_neg (by show ¬ s.pos + 1 = 0; omega)]
  show derefTok s.all (s.pos + 1 - 1) = .ok a
  rw [derefTok_at (by omega)]
  simp only [Nat.add_sub_cancel]
  have hg : some a = s.all[s.pos]? := hg
  have hlt : s.pos < s.all.length := by omega
  rw [List.getElem?_eq_getElem hlt] at hg
  injection hg with hg
  exact congrArg Except.ok hg.symm

/-- C85: `expect_tok`, `expect_id`, `expect_id_low` and `expect_integer` take one token of the kind and give its
text, its text in lower case, or its number; with any other token they end the program, and so does
an integer that `std::stoi` does not take. -/
theorem C85_expect (s : Strm) (h : Inside s) (a : Tok) (ts : List Tok) (hr : restOf s = a :: ts) :
    (∀ k, a.token = k → s.expectTok k = s.consume 1) ∧ (∀ k, a.token ≠ k → s.expectTok k = .error .exc) ∧
    (a.token = Tag.TK_NAME → ∃ s', s.consume 1 = .ok s' ∧ s.expectId = .ok (a.text, s') ∧ s.expectIdLow = .ok (a.lowerText.1, s')) ∧
    (a.token ≠ Tag.TK_NAME → s.expectId = .error .exc ∧ s.expectIdLow = .error .exc) ∧
    (a.token = Tag.SG_INT_LITERAL_CONSTANT → ∀ v, stoi a.text = .ok v → ∃ s', s.consume 1 = .ok s' ∧ s.expectInteger = .ok (v, s')) ∧
    (a.token ≠ Tag.SG_INT_LITERAL_CONSTANT ∨ stoi a.text = .error .exc → s.expectInteger = .error .exc) := by
  have hp : s.peek = .ok a.token := by
    have := (C85_look s h).1
    rwa [hr] at this
  obtain ⟨hc, ht⟩ := next_curr h hr
  refine ⟨?_, ?_, ?_, ?_, ?_, ?_⟩
  · rintro k rfl
    rw [Strm.expectTok, hp, Res.ok_bind, hc, Res.ok_bind, if_neg (by simp)]
  · intro k hk
    rw [Strm.expectTok, hp, Res.ok_bind, hc, Res.ok_bind, if_pos hk]
  · intro hk
    refine ⟨_, hc, ?_, ?_⟩
    · rw [Strm.expectId, hp, Res.ok_bind, if_neg (by simp [hk]), hc, Res.ok_bind, ht, Res.ok_bind]
    · rw [Strm.expectIdLow, hp, Res.ok_bind, if_neg (by simp [hk]), hc, Res.ok_bind, ht, Res.ok_bind]
  · intro hk
    constructor
    · rw [Strm.expectId, hp, Res.ok_bind, if_pos hk]
    · rw [Strm.expectIdLow, hp, Res.ok_bind, if_pos hk]
  · intro hk v hv
    refine ⟨_, hc, ?_⟩
    rw [Strm.expectInteger, hp, Res.ok_bind, if_neg (by simp [hk]), hc, Res.ok_bind, ht, Res.ok_bind, hv, Res.ok_bind]
  · intro hk
    by_cases hi : a.token = Tag.SG_INT_LITERAL_CONSTANT
    · rcases hk with hk | hk
      · exact absurd hi hk
      · rw [Strm.expectInteger, hp, Res.ok_bind, if_neg (by simp [hi]), hc, Res.ok_bind, ht, Res.ok_bind, hk]
        rfl
    · rw [Strm.expectInteger, hp, Res.ok_bind, if_pos hi]

/-- C85: at the end of the statement every `expect_*` but `expect_eol` ends the program; `expect_eol` ends it exactly
where `is_eol` says no. -/
theorem C85_expect_end (s : Strm) (h : Inside s) :
    (restOf s = [] → (∀ k, k ≠ Tag.BAD → s.expectTok k = .error .exc) ∧ s.expectId = .error .exc ∧ s.expectIdLow = .error .exc ∧
      s.expectInteger = .error .exc) ∧
    (restOf s = [] ∨ firstTag (restOf s) = Tag.TK_SEMICOLON → ∃ s', s.isEol = .ok (true, s') ∧ s.expectEol = .ok s') ∧
    (restOf s ≠ [] → firstTag (restOf s) ≠ Tag.TK_SEMICOLON → s.expectEol = .error .exc) := by
  have h3 := h.hi_len
  have h2 := h.pos_hi
  refine ⟨?_, ?_, ?_⟩
  · intro hr
    have hp : s.peek = .ok Tag.BAD := by
      have := (C85_look s h).1
      rwa [hr] at this
    refine ⟨?_, ?_, ?_, ?_⟩
    · intro k hk
      rw [Strm.expectTok, hp, Res.ok_bind, Strm.consume, if_pos (by omega), Res.ok_bind, if_pos (fun e => hk e.symm)]
    · rw [Strm.expectId, hp, Res.ok_bind, if_pos (by decide)]
    · rw [Strm.expectIdLow, hp, Res.ok_bind, if_pos (by decide)]
    · rw [Strm.expectInteger, hp, Res.ok_bind, if_pos (by decide)]
  · rintro (hr | hr)
    · have e := (C85_eol s h).1 hr
      exact ⟨s, e, by rw [Strm.expectEol, e]; rfl⟩
    · obtain ⟨s', e, _⟩ := (C85_eol s h).2.1 hr
      exact ⟨s', e, by rw [Strm.expectEol, e]; rfl⟩
  · intro h4 h5
    rw [Strm.expectEol, (C85_eol s h).2.2 h4 h5]
    rfl

/-- C85: a capture over `n` tokens of the statement has size `n`, is empty exactly for `n = 0`, its text is that
of the tokens, one behind the other without blanks, and its range is that of `digest(n)`. -/
theorem C85_capture (s : Strm) (h : Inside s) (n : Nat) (hn : n ≤ (restOf s).length) :
    ∃ s' r, s.digest n = .ok (r, s') ∧ (s'.captureEnd s.captureBegin).size = .ok (n : Int) ∧
      ((s'.captureEnd s.captureBegin).empty = true ↔ n = 0) ∧
      s'.captureText (s'.captureEnd s.captureBegin) = .ok (((restOf s).take n).flatMap (·.text)) ∧
      s'.captureRange (s'.captureEnd s.captureBegin) = .ok r := by
  obtain ⟨b, e, s', h1, h2, h3⟩ := C85_digest s h n hn
  have h4 := h.lo_pos
  have h5 := h.pos_hi
  have h6 := h.hi_len
  rw [restOf_len h] at hn
  have hc : s.consume n = .ok (s.goto (s.pos + n)) := by rw [Strm.consume, if_pos (by omega)]
  rw [hc] at h2
  injection h2 with h2
  subst h2
  have hd : s.digest n = .ok ((s.pos, s.pos + n), s.goto (s.pos + n)) := by
    rw [Strm.digest, hc, Res.ok_bind, Strm.mkRange, if_pos ⟨by show s.pos ≤ s.pos + n; omega, by show s.pos + n ≤ s.all.length + 1; omega⟩]
    rfl
  rw [hd] at h1
  injection h1 with h1
  injection h1 with h1 _
  injection h1 with hb he
  subst hb he
  refine ⟨_, _, hd, ?_, ?_, ?_, ?_⟩
  · show (if s.pos ≤ s.pos + n then _ else _) = _
    rw [if_pos (by omega)]
    show Except.ok (((s.pos + n - s.pos : Nat)) : Int) = _
    rw [Nat.add_sub_cancel_left]
  · show (s.pos == s.pos + n) = true ↔ _
    simp
  · show (if s.pos ≤ s.pos + n ∧ s.pos + n ≤ s.all.length then _ else _) = _
    rw [if_pos (by omega)]
    exact congrArg (fun z => Except.ok (List.flatMap (·.text) z)) h3
  · show Strm.mkRange s.all s.pos (s.pos + n) = _
    rw [Strm.mkRange, if_pos (by omega)]

/-- C85: a capture that was not ended is empty, but its text and its range are undefined. -/
theorem C85_violation_open (s : Strm) : s.captureBegin.empty = true ∧ s.captureBegin.size = .ok 0 ∧
    s.captureText s.captureBegin = .error .ub ∧ s.captureRange s.captureBegin = .error .ub := ⟨rfl, rfl, rfl, rfl⟩

theorem unkeyword_list {r : Registry} : ∀ (ts : List Tok) (n : Int), (∀ t ∈ ts, ∃ b, r.isKeyword t.token = .ok b) →
    -2147483648 + (ts.length : Int) < n → ∃ ts', unkeywordToks r n ts = .ok ts' ∧
      ts' = if n < 0 then ts.map (plainName r) else (ts.take n.toNat).map (plainName r) ++ ts.drop n.toNat
  | [], n, _, _ => ⟨[], rfl, by split <;> simp⟩
  | t :: ts, n, hk, hn => by
    rw [unkeywordToks]
    by_cases h0 : n = 0
    · subst h0
      exact ⟨t :: ts, by rw [if_pos rfl], by simp⟩
    · rw [List.length_cons] at hn
      push_cast at hn
      rw [if_neg h0, if_neg (by omega)]
      obtain ⟨b, hb⟩ := hk t (by simp)
      obtain ⟨ts', g1, g2⟩ := unkeyword_list ts (n - 1) (fun u hu => hk u (by simp [hu])) (by omega)
      refine ⟨(if b then { t with token := Tag.TK_NAME } else t) :: ts', by rw [hb, Res.ok_bind, g1, Res.ok_bind], ?_⟩
      have hp : (if b then { t with token := Tag.TK_NAME } else t) = plainName r t := by
        rw [plainName, hb]
        cases b <;> simp
      rw [hp, g2]
      by_cases hneg : n < 0
      · rw [if_pos hneg, if_pos (by omega), List.map_cons]
      · rw [if_neg hneg, if_neg (by omega)]
        obtain ⟨m, rfl⟩ : ∃ m : Nat, n = m + 1 := ⟨(n - 1).toNat, by omega⟩
        have e1 : ((m : Int) + 1).toNat = m + 1 := by omega
        have e2 : ((m : Int) + 1 - 1).toNat = m := by omega
        rw [e1, e2]
        simp

/-- C85: `unkeyword(n)` makes names of the keywords among the next `n` tokens, or among all that are left for
`n` below zero, and changes nothing else in the line; the cursor stays. -/
theorem C85_unkeyword (r : Registry) (s : Strm) (h : Inside s) (n : Int) (hk : ∀ t ∈ restOf s, ∃ b, r.isKeyword t.token = .ok b)
    (hn : -2147483648 + ((restOf s).length : Int) < n) :
    ∃ s', s.unkeyword r n = .ok s' ∧ s'.pos = s.pos ∧ s'.lo = s.lo ∧ s'.hi = s.hi ∧
      s'.all.take s.pos = s.all.take s.pos ∧ s'.all.drop s.hi = s.all.drop s.hi ∧ s'.all.map (·.text) = s.all.map (·.text) ∧
      restOf s' = (if n < 0 then (restOf s).map (plainName r)
        else ((restOf s).take n.toNat).map (plainName r) ++ (restOf s).drop n.toNat) := by
  have h1 := h.lo_pos
  have h2 := h.pos_hi
  have h3 := h.hi_len
  obtain ⟨ts', g1, g2⟩ := unkeyword_list (restOf s) n hk hn
  have hlen : ts'.length = s.hi - s.pos := by
    rw [← restOf_len h, g2]
    split
    · simp
    · simp
      omega
  have htext : ts'.map (·.text) = (restOf s).map (·.text) := by
    have pt : ∀ t : Tok, (plainName r t).text = t.text := by
      intro t
      unfold plainName
      split <;> rfl
    have pm : ∀ l : List Tok, (l.map (plainName r)).map (·.text) = l.map (·.text) := by
      intro l
      rw [List.map_map]
      exact List.map_congr_left (fun t _ => pt t)
    rw [g2]
    split
    · exact pm _
    · rw [List.map_append, pm, ← List.map_append, List.take_append_drop]
  have hl1 : (s.all.take s.pos).length = s.pos := by rw [List.length_take]; omega
  have hsplit : s.all = s.all.take s.pos ++ restOf s ++ s.all.drop s.hi := by
    have e : s.all.take s.hi = s.all.take s.pos ++ restOf s := by
      have := (List.take_append_drop s.pos (s.all.take s.hi)).symm
      rwa [List.take_take, Nat.min_eq_left h2] at this
    rw [← e, List.take_append_drop]
  refine ⟨{ s with all := s.all.take s.pos ++ ts' ++ s.all.drop s.hi }, ?_, rfl, rfl, rfl, ?_, ?_, ?_, ?_⟩
  · rw [Strm.unkeyword, if_pos h2]
    show (unkeywordToks r n (restOf s) >>= _) = _
    rw [g1]
    rfl
  · show (s.all.take s.pos ++ ts' ++ s.all.drop s.hi).take s.pos = _
    rw [List.append_assoc, List.take_append_of_le_length (by omega), List.take_take, Nat.min_self]
  · show (s.all.take s.pos ++ ts' ++ s.all.drop s.hi).drop s.hi = _
    apply List.drop_left'
    rw [List.length_append, hl1, hlen]
    omega
  · show (s.all.take s.pos ++ ts' ++ s.all.drop s.hi).map (·.text) = _
    conv_rhs => rw [hsplit]
    simp only [List.map_append, htext]
  · rw [← g2]
    show ((s.all.take s.pos ++ ts' ++ s.all.drop s.hi).take s.hi).drop s.pos = ts'
    rw [List.take_left' (by rw [List.length_append, hl1, hlen]; omega), List.drop_left' hl1]

/-! ### Examples -/

/-- The stream over `x = 1` in the line `x = 1 ; y`, with the cursor in front of `1`. -/
def midStrm : Strm :=
  { all := [tokOf Tag.TK_NAME, tokOf Tag.TK_EQUAL, tokOf Tag.SG_INT_LITERAL_CONSTANT, tokOf Tag.TK_SEMICOLON, tokOf Tag.TK_NAME],
    lo := 0, hi := 3, pos := 2 }

example : Inside midStrm ∧ (restOf midStrm).length = 1 ∧ (beforeOf midStrm).length = 2 := ⟨⟨by decide, by decide, by decide⟩, rfl, rfl⟩

/-- `peek(3)` of it is the `y` of the next statement. -/
example : midStrm.peekAt 3 = .ok Tag.TK_NAME := C85_violation_peek midStrm 3 (by decide) (by decide) (by decide)

/-- The stream over the whole line, with the cursor in front of the semicolon. -/
example : ∃ s a b ts, Inside s ∧ restOf s = a :: b :: ts ∧ a.token = Tag.TK_SEMICOLON ∧ b.token ≠ Tag.TK_SEMICOLON :=
  ⟨{ midStrm with hi := 5, pos := 3 }, tokOf Tag.TK_SEMICOLON, tokOf Tag.TK_NAME, [], ⟨by decide, by decide, by decide⟩, rfl, rfl, by decide⟩

/-- The stream over `if = 1`, where `if` was taken for a keyword. -/
def kwStrm : Strm :=
  { all := [tokOf Tag.KW_IF, tokOf Tag.TK_EQUAL, tokOf Tag.KW_IF], lo := 0, hi := 3, pos := 0 }

/-- All of its tokens have a type, and `unkeyword(1)` turns the first into a name and leaves the last alone. -/
example : Inside kwStrm ∧ (∀ t ∈ restOf kwStrm, ∃ b, Registry.isKeyword [] t.token = .ok b) ∧
    (kwStrm.unkeyword [] 1).toOption.map (·.all.map (·.token)) = some [Tag.TK_NAME, Tag.TK_EQUAL, Tag.KW_IF] ∧
    (kwStrm.unkeyword [] (-1)).toOption.map (·.all.map (·.token)) = some [Tag.TK_NAME, Tag.TK_EQUAL, Tag.TK_NAME] := by
  refine ⟨⟨by decide, by decide, by decide⟩, ?_, by decide +kernel, by decide +kernel⟩
  intro t ht
  have : t = tokOf Tag.KW_IF ∨ t = tokOf Tag.TK_EQUAL ∨ t = tokOf Tag.KW_IF := by
    have e : restOf kwStrm = [tokOf Tag.KW_IF, tokOf Tag.TK_EQUAL, tokOf Tag.KW_IF] := rfl
    rw [e] at ht
    simpa using ht
  rcases this with rfl | rfl | rfl
  · exact ⟨true, by decide +kernel⟩
  · exact ⟨false, by decide +kernel⟩
  · exact ⟨true, by decide +kernel⟩

/-- A stream whose next token is the number `42`. -/
example : ∃ (s : Strm) (a : Tok) (ts : List Tok), Inside s ∧ restOf s = a :: ts ∧ a.token = Tag.SG_INT_LITERAL_CONSTANT ∧ stoi a.text = .ok 42 :=
  ⟨{ all := [{ token := Tag.SG_INT_LITERAL_CONSTANT, line := 1, pos := 1, text := ['4', '2'] }], lo := 0, hi := 1, pos := 0 }, _, [],
    ⟨by decide, by decide, by decide⟩, rfl, rfl, by decide +kernel⟩

end SP
end FLPR
