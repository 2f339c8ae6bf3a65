import Verif.StmtParser.StreamLemmas
/-!
# C24: moving over parentheses (src/flpr/TT_Stream.cc)

`move_to_open_paren` does what it says.  `move_to_close_paren` and `move_before_close_paren` skip the
token after the opening parenthesis without looking at it: they are right when that token exists and
is not a parenthesis.  `ignore_bracket_expr` never reports success.
-/

namespace FLPR
namespace SP
open Spec

/-- C24, `move_to_close_paren` and `move_before_close_paren`, as far as they are right: the token
after the opening parenthesis must be in the stream and must not be a parenthesis.  Missing: the
other cases, where they fail (`C24_violation_*`). -/
theorem C24_close_partial (s : Strm) (hg : GoodStream s)
    (h0 : (tagsOf s)[s.pos]? = some Tag.TK_PARENL) (h1 : s.pos + 1 < s.hi)
    (hL : (tagsOf s)[s.pos + 1]? ≠ some Tag.TK_PARENL) (hR : (tagsOf s)[s.pos + 1]? ≠ some Tag.TK_PARENR) :
    (∀ j, j < s.hi → ParenPair (tagsOf s) s.pos j →
      s.moveToCloseParen = .ok (true, s.goto (j + 1)) ∧
      s.moveBeforeCloseParen = .ok (true, s.goto j)) ∧
    ((¬ ∃ j, j < s.hi ∧ ParenPair (tagsOf s) s.pos j) →
      s.moveToCloseParen = .ok (false, s.goto s.hi) ∧
      s.moveBeforeCloseParen = .ok (false, s.goto s.hi)) := by
  obtain ⟨hA, hB⟩ := closeFrom hg h0 h1
  constructor
  · intro j hj hp
    obtain ⟨mid, rfl, hm, ha⟩ := parenPair_at.mp hp
    cases mid with
    | nil =>
      exfalso
      apply hR
      simpa using ha 1 (by simp)
    | cons t mid =>
      rw [At.cons, List.cons_append, At.cons] at ha
      have ht : t ≠ Tag.TK_PARENL := fun e => hL (e ▸ ha.2.1)
      have := hA mid ha.2.2 (balanced_tail hm ht) (by simp at hj; omega)
      simp only [List.length_cons]
      rw [show s.pos + 1 + (mid.length + 1) = s.pos + 2 + mid.length by omega]
      exact this
  · intro hno
    apply hB
    intro mid ha hm hl
    apply hno
    have hlt : s.pos + 1 < (tagsOf s).length := by
      have := hg.hi_len
      rw [Strm.len_tags]; omega
    have ht : (tagsOf s)[s.pos + 1]? = some (tagsOf s)[s.pos + 1] := List.getElem?_eq_getElem hlt
    have hL' : (tagsOf s)[s.pos + 1] ≠ Tag.TK_PARENL := fun e => hL (by rw [ht, e])
    have hR' : (tagsOf s)[s.pos + 1] ≠ Tag.TK_PARENR := fun e => hR (by rw [ht, e])
    refine ⟨s.pos + 2 + mid.length, hl, parenPair_at.mpr ⟨(tagsOf s)[s.pos + 1] :: mid, ?_,
      .other hL' hR' hm, ?_⟩⟩
    · simp; omega
    · rw [At.cons, List.cons_append, At.cons]
      exact ⟨h0, ht, ha⟩

/-- C24, `move_to_open_paren`: with a closing parenthesis just consumed it stops just behind the
opening parenthesis that belongs to it, if there is one in the stream.  Otherwise it returns false: at
the beginning of the stream if it had something to look for, and else where it was. -/
theorem C24_open (s : Strm) (hg : GoodStream s) :
    (∀ i, s.lo ≤ i → s.lo < s.pos → ParenPair (tagsOf s) i (s.pos - 1) →
      s.moveToOpenParen = .ok (true, s.goto (i + 1))) ∧
    ((¬ ∃ i, s.lo ≤ i ∧ s.lo < s.pos ∧ ParenPair (tagsOf s) i (s.pos - 1)) →
      s.moveToOpenParen = .ok (false,
        if s.lo < s.pos ∧ (tagsOf s)[s.pos - 1]? = some Tag.TK_PARENR then s.goto s.lo else s)) := by
  have hh := hg.hi_len
  have hph := hg.pos_hi
  have hlp := hg.lo_pos
  have hb : ∀ t ∈ tagsOf s, t ≠ Tag.BAD := by
    intro t ht
    obtain ⟨k, hk, rfl⟩ := List.mem_map.mp ht
    exact hg.noBad k hk
  have hnb : ∀ {i : Nat} {m : List Int}, At (tagsOf s) i m → ∀ t ∈ m, t ≠ Tag.BAD := by
    intro i m ha t ht
    obtain ⟨k, hk, rfl⟩ := List.mem_iff_getElem.mp ht
    exact hb _ (List.mem_of_getElem? (ha k hk))
  constructor
  · intro i hi hpos hp
    obtain ⟨mid, hj, hm, ha⟩ := parenPair_at.mp hp
    rw [At.cons, At.append, At.cons] at ha
    obtain ⟨ho, ham, hc, -⟩ := ha
    have hc' : (tagsOf s)[s.pos - 1]? = some Tag.TK_PARENR := by rw [hj]; exact hc
    rw [Strm.moveToOpenParen, Strm.curr_of_tags hc' hpos, Res.ok_bind, if_neg (by simp)]
    have h2 := openLoop_bal hm (hnb ham) (i + 1) (s.pos - mid.length + 1 + 1) 1 (by omega) ham
      (by omega)
    rw [show i + 1 + mid.length + 1 = s.pos by omega, Strm.goto_self,
      show s.pos - mid.length + 1 + 1 + mid.length = s.pos + 2 by omega] at h2
    rw [h2, Strm.openLoop, if_pos (by omega), Strm.putBack_ok (by simp; omega)]
    simp only [Res.ok_bind, Strm.goto_goto, Strm.goto_pos, Nat.add_sub_cancel]
    rw [Strm.curr_goto ho hi]
    simp [Strm.openLoop]
  · intro hno
    by_cases hpos : s.pos = s.lo
    · rw [Strm.moveToOpenParen, Strm.curr_begin hpos, Res.ok_bind, if_pos parenR_ne_bad.symm,
        if_neg (by omega)]
    · have hlt : s.pos - 1 < (tagsOf s).length := by rw [Strm.len_tags]; omega
      have ht : (tagsOf s)[s.pos - 1]? = some (tagsOf s)[s.pos - 1] := List.getElem?_eq_getElem hlt
      by_cases hR : (tagsOf s)[s.pos - 1] = Tag.TK_PARENR
      · rw [hR] at ht
        rw [if_pos ⟨by omega, ht⟩]
        rw [Strm.moveToOpenParen, Strm.curr_of_tags ht (by omega), Res.ok_bind, if_neg (by simp)]
        have hsl : At (tagsOf s) s.lo (((tagsOf s).drop s.lo).take (s.pos - 1 - s.lo)) :=
          At.tokSlice (by rw [Strm.len_tags]; omega)
        have hlen : (((tagsOf s).drop s.lo).take (s.pos - 1 - s.lo)).length = s.pos - 1 - s.lo := by
          rw [List.length_take, List.length_drop, Strm.len_tags]; omega
        generalize hl : ((tagsOf s).drop s.lo).take (s.pos - 1 - s.lo) = l at hsl hlen
        rcases backward_cases _ l (le_refl _) with ⟨pre, mid, rfl, hm⟩ | hu
        · exfalso
          apply hno
          rw [At.append] at hsl
          simp at hlen
          refine ⟨s.lo + pre.length, by omega, by omega, parenPair_at.mpr ⟨mid, by omega, hm, ?_⟩⟩
          rw [At.cons, At.append]
          have h3 := At.cons.mp hsl.2
          refine ⟨h3.1, h3.2, At.cons.mpr ⟨?_, At.nil _ _⟩⟩
          rw [show s.lo + pre.length + 1 + mid.length = s.pos - 1 by omega]
          exact ht
        · obtain ⟨d', hd', e⟩ := openLoop_unopened hu (hnb hsl) (s.pos + 1 - l.length) 1 (by omega) hsl
          rw [show s.lo + l.length + 1 = s.pos by omega, Strm.goto_self,
            show s.pos + 1 - l.length + l.length + 1 = s.pos + 2 by omega] at e
          rw [e]
          simp
          omega
      · rw [Strm.moveToOpenParen, Strm.curr_of_tags ht (by omega), Res.ok_bind, if_pos hR,
          if_neg (fun h => hR (Option.some.inj (ht.symm.trans h.2)))]

/-- A token with a tag and nothing else. -/
def tokOf (t : Int) : Tok := { token := t, line := 1, pos := 1, text := ['?'] }

/-- A stream over tokens with the given tags. -/
def strmOf (ts : List Int) : Strm := Strm.mk' (ts.map tokOf) 0 ts.length

/-- `()`: the matching parenthesis is missed and false returned. -/
theorem C24_violation_empty : ∃ s, GoodStream s ∧ ParenPair (tagsOf s) s.pos 1 ∧
    s.moveToCloseParen = .ok (false, s.goto s.hi) ∧ s.moveBeforeCloseParen = .ok (false, s.goto s.hi) := by
  refine ⟨strmOf [Tag.TK_PARENL, Tag.TK_PARENR], ⟨by decide, by decide, by decide, by decide⟩,
    ⟨[], [], [], rfl, rfl, rfl, .nil⟩, by decide, by decide⟩

/-- `((a))`: the inner closing parenthesis is taken for the matching one. -/
theorem C24_violation_nested : ∃ s, GoodStream s ∧ ParenPair (tagsOf s) s.pos 4 ∧
    s.moveToCloseParen = .ok (true, s.goto 4) ∧ s.moveBeforeCloseParen = .ok (true, s.goto 3) := by
  refine ⟨strmOf [Tag.TK_PARENL, Tag.TK_PARENL, Tag.TK_NAME, Tag.TK_PARENR, Tag.TK_PARENR],
    ⟨by decide, by decide, by decide, by decide⟩,
    ⟨[], [Tag.TK_PARENL, Tag.TK_NAME, Tag.TK_PARENR], [], rfl, rfl, rfl,
      .group (a := [Tag.TK_NAME]) (b := []) rfl rfl (.other (by decide) (by decide) .nil) .nil⟩,
    by decide, by decide⟩

/-- `(` as the last token of the line: what lies behind the list of tokens is read. -/
theorem C24_violation_end : ∃ s, GoodStream s ∧ (tagsOf s)[s.pos]? = some Tag.TK_PARENL ∧
    s.moveToCloseParen = .error .ub ∧ s.moveBeforeCloseParen = .error .ub := by
  refine ⟨strmOf [Tag.TK_PARENL], ⟨by decide, by decide, by decide, by decide⟩, rfl, by decide,
    by decide⟩

theorem bracketLoop_depth : ∀ (n : Nat) (s : Strm) (d : Int) (r : Int × Strm), 0 ≤ d →
    Strm.bracketLoop n s d = .ok r → 0 ≤ r.1 := by
  intro n
  induction n with
  | zero => intro s d r _ h; simp [Strm.bracketLoop] at h
  | succ n ih =>
    intro s d r hd h
    rw [Strm.bracketLoop] at h
    by_cases h0 : d > 0
    · rw [if_pos h0] at h
      rbind h with t ht
      split at h
      · rbind h with s' hs; exact ih _ _ _ (by omega) h
      · split at h
        · rbind h with s' hs; exact ih _ _ _ (by omega) h
        · split at h
          · injection h with h; subst h; exact hd
          · rbind h with s' hs; exact ih _ _ _ hd h
    · rw [if_neg h0] at h
      injection h with h; subst h; exact hd

/-- C24, `ignore_bracket_expr`: it never returns true, whatever the tokens are, because the depth it
compares with -1 is never negative. -/
theorem C24_violation_bracket (s : Strm) (b : Bool) (s' : Strm)
    (h : s.ignoreBracketExpr = .ok (b, s')) : b = false := by
  rw [Strm.ignoreBracketExpr] at h
  rbind h with s1 h1
  rbind h with r hr
  have := bracketLoop_depth _ _ _ _ (by omega) hr
  injection h with h
  injection h with h _
  subst h
  simp
  omega

/-- `[a]` is such a case with a matching bracket. -/
example : (strmOf [Tag.TK_BRACKETL, Tag.TK_NAME, Tag.TK_BRACKETR]).ignoreBracketExpr =
    .ok (false, (strmOf [Tag.TK_BRACKETL, Tag.TK_NAME, Tag.TK_BRACKETR]).goto 3) := by decide

/-- `(a(b)c) d` meets the hypotheses of `C24_close_partial`. -/
example : ∃ s : Strm, GoodStream s ∧ (tagsOf s)[s.pos]? = some Tag.TK_PARENL ∧ s.pos + 1 < s.hi ∧
    (tagsOf s)[s.pos + 1]? ≠ some Tag.TK_PARENL ∧ (tagsOf s)[s.pos + 1]? ≠ some Tag.TK_PARENR ∧
    ParenPair (tagsOf s) s.pos 6 := by
  refine ⟨strmOf [Tag.TK_PARENL, Tag.TK_NAME, Tag.TK_PARENL, Tag.TK_NAME, Tag.TK_PARENR, Tag.TK_NAME,
    Tag.TK_PARENR, Tag.TK_NAME], ⟨by decide, by decide, by decide, by decide⟩, rfl, by decide,
    by decide, by decide, [], [Tag.TK_NAME, Tag.TK_PARENL, Tag.TK_NAME, Tag.TK_PARENR, Tag.TK_NAME],
    [Tag.TK_NAME], rfl, rfl, rfl, ?_⟩
  refine .other (by decide) (by decide) (.group (a := [Tag.TK_NAME]) (b := [Tag.TK_NAME]) rfl rfl ?_ ?_)
  · exact .other (by decide) (by decide) .nil
  · exact .other (by decide) (by decide) .nil

end SP
end FLPR
