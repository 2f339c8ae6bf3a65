import Verif.StmtParser.Client
import Verif.StmtParser.ParserProps
/-!
# C88: extension parsers made of the combinators are what the other theorems take extensions to be
-/

namespace FLPR
namespace SP
open Spec

/-- C88: a parser made of the combinators, in which what is repeated takes a token, ends on every stream and in one way. -/
theorem C88_terminates (p : P) (hp : p.starsTake R.takes = true) (s : Strm) :
    ∃ res, ClientReturns p s res ∧ ∀ res', ClientReturns p s res' → res' = res := by
  have hc : Conv (fun n => runClient p n s) :=
    runBody_conv (rk := R.rank) (ρ := 8) (eval_takes forward_none grammar_takes)
      (by rw [Body.descends, left_top, hp]; rfl)
      (fun q s' h1 h2 _ => eval_conv forward_none grammar_takes grammar_descends left_top s'.rem 8 (sizeOf q) q s'
        h1 h2 (le_refl _) (le_refl _))
  obtain ⟨N, v, hv, h⟩ := hc
  obtain ⟨res, rfl⟩ := ne_fuel_up hv
  refine ⟨res, ⟨N, h⟩, ?_⟩
  rintro res' ⟨M, h'⟩
  exact up_inj ((h' (max N M) (by omega)).symm.trans (h (max N M) (by omega)))

theorem client_unique {p : P} {s : Strm} {a b : Res (Option SNode × Strm)} (h1 : ClientReturns p s a) (h2 : ClientReturns p s b) :
    a = b := by
  obtain ⟨N, h1⟩ := h1
  obtain ⟨M, h2⟩ := h2
  exact up_inj ((h1 (max N M) (by omega)).symm.trans (h2 (max N M) (by omega)))

/-- A result with some bound is the result. -/
theorem client_of {p : P} {s : Strm} {res : Res (Option SNode × Strm)} (n : Nat) (h : runClient p n s = up res) :
    ClientReturns p s res := by
  refine ⟨n, fun m hm => ?_⟩
  have hl : Le (runClient p n s) (runClient p m s) :=
    runBody_le (fun q s => eval_le R.body noExts n m q s hm) noExts hm (.comb p) s
  rcases hl with e | e
  · rw [h] at e; exact absurd e (up_ne_fuel _)
  · rw [← e, h]

/-- C88: such an extension exists. -/
theorem C88_exists (p : P) (hp : p.starsTake R.takes = true) : ∃ e, Implements e p := by
  classical
  refine ⟨fun s => if s.all.length + 1 < s.pos then .error .ub else
    (Classical.choose (C88_terminates p hp s)).map fun w => (w.1, w.2.pos), fun s => ⟨fun h => if_pos h, fun h res hr => ?_⟩⟩
  show (if s.all.length + 1 < s.pos then _ else _) = _
  rw [if_neg (by omega), client_unique (Classical.choose_spec (C88_terminates p hp s)).1 hr]

theorem client_safe {p : P} (hg : p.good = true) {s : Strm} (hs : GoodStmt s) {res : Res (Option SNode × Strm)}
    (h : ClientReturns p s res) :
    Safe (Risk (p.calls fun r => R.designates.contains r) s) (up res) (fun w => ∀ n, w.1 = some n → PostAt s s.pos w.1 w.2) := by
  obtain ⟨N, h⟩ := h
  rw [← h N (le_refl _)]
  exact runBody_safe (u := fun r => R.designates.contains r) (eval_safe goodExts_none grammar_good grammar_calls N) goodExts_none hs
    (b := .comb p) hg

/-- C88: the tree of such a parser covers exactly the tokens taken, as in C26. -/
theorem C88_covers (p : P) (hg : p.good = true) (s t : Strm) (n : SNode) (hs : GoodStmt s)
    (h : ClientReturns p s (.ok (some n, t))) :
    s.pos ≤ t.pos ∧ t.pos ≤ s.hi ∧ t = s.goto t.pos ∧ Covers (tagsOf s) n s.pos t.pos := by
  obtain ⟨q, e1, e2, e3, e4⟩ := client_safe hg hs h n rfl
  have e1 : t = s.goto q := e1
  subst e1
  exact ⟨e2, e3, rfl, e4⟩

/-- C88: such a parser has no other failure than undefined behaviour, and that only on a statement that ends with `)`,
when it can get to `procedure_designator`. -/
theorem C88_defined (p : P) (hg : p.good = true) (s : Strm) (hs : GoodStmt s) (res : Res (Option SNode × Strm))
    (h : ClientReturns p s res) :
    (∃ w, res = .ok w) ∨ (res = .error .ub ∧ EndsInParen s ∧ p.calls (fun r => R.designates.contains r) = true) := by
  have h1 := client_safe hg hs h
  match res, h1 with
  | .ok w, _ => exact .inl ⟨w, rfl⟩
  | .error e, h1 => exact .inr ⟨by rw [h1.1], h1.2⟩

/-- C88: a parser that cannot get to `procedure_designator` is a good extension. -/
theorem C88_good_partial (p : P) (hg : p.good = true) (hp : p.starsTake R.takes = true)
    (hc : p.calls (fun r => R.designates.contains r) = false) (e : Ext) (he : Implements e p) (x : Exts)
    (hx : ∀ e' ∈ x.action ++ x.other, e' = e) : GoodExts x := by
  intro e' h' s hs
  obtain rfl := hx e' h'
  obtain ⟨res, hr, _⟩ := C88_terminates p hp s
  have hs1 := hs.pos_hi
  have hs2 := hs.hi_len
  have hv := (he s).2 (by omega) res hr
  rcases C88_defined p hg s hs res hr with ⟨w, rfl⟩ | ⟨_, _, h⟩
  · refine ⟨w.1, w.2.pos, hv, fun n hn => ?_⟩
    obtain ⟨a, b⟩ := w
    simp only at hn
    subst hn
    obtain ⟨h1, h2, _, h4⟩ := C88_covers p hg s b n hs hr
    exact ⟨h1, h2, h4⟩
  · rw [hc] at h; cases h

/-- C88: it does not move the stream backwards or past the end. -/
theorem C88_forward (p : P) (hp : p.starsTake R.takes = true) (e : Ext) (he : Implements e p) (x : Exts)
    (hx : ∀ e' ∈ x.action ++ x.other, e' = e) : x.Forward := by
  intro e' h' s t q hq
  obtain rfl := hx e' h'
  by_cases hl : s.all.length + 1 < s.pos
  · rw [(he s).1 hl] at hq; cases hq
  · obtain ⟨res, hr, _⟩ := C88_terminates p hp s
    rw [(he s).2 (by omega) res hr] at hq
    match res, hr, hq with
    | .ok (some t', u), hr, hq =>
      cases hq
      obtain ⟨N, h⟩ := hr
      have ha : Adv true s u := runBody_adv (fun _ => forward_none) (eval_adv (g := R.body) (fun _ => forward_none) N) (h N (le_refl _))
      exact ⟨ha.fwd rfl, ha.bnd rfl (by omega)⟩

/-- C88: if it ends with `eol()`, it matches whole statements only. -/
theorem C88_end (p : P) (hp : p.starsTake R.takes = true) (hn : p.treeEnds R.endsStmt = true) (e : Ext)
    (he : Implements e p) (x : Exts) (hx : ∀ e' ∈ x.action ++ x.other, e' = e) : x.End := by
  have h0 : noExts.End := by intro e he; simp [noExts] at he
  intro e' h' s t q hq
  obtain rfl := hx e' h'
  by_cases hl : s.all.length + 1 < s.pos
  · rw [(he s).1 hl] at hq; cases hq
  · obtain ⟨res, hr, _⟩ := C88_terminates p hp s
    rw [(he s).2 (by omega) res hr] at hq
    match res, hr, hq with
    | .ok (some t', u), hr, hq =>
      cases hq
      obtain ⟨N, h⟩ := hr
      have h := h N (le_refl _)
      have ha : Adv true s u := runBody_adv (fun _ => forward_none) (eval_adv (g := R.body) (fun _ => forward_none) N) h
      have hb := runBody_ends h0 (eval_ends' h0 grammar_ends N) (eval_restores _ noExts N) (b := .comb p) hn h rfl
      rw [← ha.frame.eq_goto]
      exact hb

/-- C88: the tree of a sequence has the tag that the client gives it. -/
theorem C88_tag (tag : Int) (ps : List P) (s t : Strm) (n : SNode) (h : ClientReturns (.seq tag ps) s (.ok (some n, t))) : n.tag = tag := by
  obtain ⟨N, h⟩ := h
  exact runBody_tag (t := R.rootTag) (eval_tag grammar_rootTag N) (b := .comb (.seq tag ps)) rfl (h N (le_refl _)) rfl

/-- C88 for the parsers of `ext_demo`: they end, their trees cover what was taken, and a match is a whole statement. -/
theorem C88_write_comma (tag : Int) (s : Strm) (hs : GoodStmt s) :
    ∃ res, ClientReturns (writeComma tag) s res ∧ (∀ res', ClientReturns (writeComma tag) s res' → res' = res) ∧
      ((¬ EndsInParen s) → ∃ w, res = .ok w) ∧
      ∀ n t, res = .ok (some n, t) → n.tag = tag ∧ t = s.goto s.hi ∧ Covers (tagsOf s) n s.pos s.hi := by
  have hp : (writeComma tag).starsTake R.takes = true := by
    have : (writeComma tag).starsTake R.takes = (writeComma 0).starsTake R.takes := rfl
    rw [this]; decide +kernel
  have hg : (writeComma tag).good = true := by
    have : (writeComma tag).good = (writeComma 0).good := rfl
    rw [this]; decide +kernel
  have hn : (writeComma tag).treeEnds R.endsStmt = true := by
    have : (writeComma tag).treeEnds R.endsStmt = (writeComma 0).treeEnds R.endsStmt := rfl
    rw [this]; decide +kernel
  have h0 : noExts.End := by intro e he; simp [noExts] at he
  obtain ⟨res, hr, hu⟩ := C88_terminates _ hp s
  refine ⟨res, hr, hu, fun hh => ?_, ?_⟩
  · rcases C88_defined _ hg s hs res hr with h | ⟨_, h, _⟩
    · exact h
    · exact absurd h hh
  · rintro n t rfl
    obtain ⟨a1, a2, a3, a4⟩ := C88_covers _ hg s t n hs hr
    have htag := C88_tag tag _ s t n hr
    obtain ⟨N, h⟩ := hr
    have hb := runBody_ends h0 (eval_ends' h0 grammar_ends N) (eval_restores _ noExts N) (b := .comb (writeComma tag)) hn
      (h N (le_refl _)) rfl
    rw [a3] at hb
    have hs' := GoodStmt_goto hs (q := t.pos) (le_trans hs.lo_pos a1) a2
    have he : t.pos = s.hi := peek_bad_end hs' hb
    rw [he] at a3 a4
    exact ⟨htag, a3, a4⟩

/-- `write(*,100), a, b`, the line of `ext_demo`. -/
def commaLine : Strm := lineOf [Tag.KW_WRITE, Tag.TK_PARENL, Tag.TK_ASTERISK, Tag.TK_COMMA, Tag.SG_INT_LITERAL_CONSTANT, Tag.TK_PARENR,
  Tag.TK_COMMA, Tag.TK_NAME, Tag.TK_COMMA, Tag.TK_NAME]

/-- `write(6), (a)`. -/
def parenLine : Strm := lineOf [Tag.KW_WRITE, Tag.TK_PARENL, Tag.SG_INT_LITERAL_CONSTANT, Tag.TK_PARENR, Tag.TK_COMMA,
  Tag.TK_PARENL, Tag.TK_NAME, Tag.TK_PARENR]

/-- The extension of `ext_demo` is undefined for `write(6), (a)`. -/
theorem C88_violation_paren : ClientReturns (writeComma Tag.SG_WRITE_STMT) parenLine (.error .ub) := by
  have h : isUB (runClient (writeComma Tag.SG_WRITE_STMT) 60 parenLine) = true := by decide +kernel
  refine client_of 60 ?_
  match hw : runClient (writeComma Tag.SG_WRITE_STMT) 60 parenLine, h with
  | .error (.fail .ub), _ => rfl

theorem parenLine_good : GoodStmt parenLine := by
  refine good_of (goodTags_of (by decide +kernel)) (.plain ⟨by decide, by decide, by decide, by decide⟩ ?_)
  refine .paren (a := [Tag.SG_INT_LITERAL_CONSTANT]) (b := [Tag.TK_COMMA, Tag.TK_PARENL, Tag.TK_NAME, Tag.TK_PARENR])
    (.plain ⟨by decide, by decide, by decide, by decide⟩ .nil) (.plain ⟨by decide, by decide, by decide, by decide⟩ ?_)
  exact .paren (a := [Tag.TK_NAME]) (b := []) (.plain ⟨by decide, by decide, by decide, by decide⟩ .nil) .nil

/-- So it is not a good extension. -/
theorem C88_violation_good (e : Ext) (he : Implements e (writeComma Tag.SG_WRITE_STMT)) (x : Exts) (hx : e ∈ x.action) : ¬ GoodExts x := by
  intro hg
  obtain ⟨t, q, h, _⟩ := hg e (List.mem_append_left _ hx) _ parenLine_good
  rw [(he parenLine).2 (by decide +kernel) _ C88_violation_paren] at h
  cases h

/-- `write(*,100), a, b` is a good statement that does not end with `)`, no statement of the library accepts it as an action
statement, and the parsers of `ext_demo` do, with their tags. -/
example : GoodStmt commaLine ∧ ¬ EndsInParen commaLine ∧ (∃ s, Returns noExts .action_stmt commaLine (.ok (none, s))) ∧
    ∀ tag ∈ [Tag.SG_WRITE_STMT, myWriteStmt], ∃ n t, ClientReturns (writeComma tag) commaLine (.ok (some n, t)) ∧ n.tag = tag := by
  refine ⟨?_, ?_, ?_, ?_⟩
  · refine good_of (goodTags_of (by decide +kernel)) (.plain ⟨by decide, by decide, by decide, by decide⟩ ?_)
    refine .paren (a := [Tag.TK_ASTERISK, Tag.TK_COMMA, Tag.SG_INT_LITERAL_CONSTANT]) (b := [Tag.TK_COMMA, Tag.TK_NAME, Tag.TK_COMMA, Tag.TK_NAME])
      ?_ ?_
    · exact .plain ⟨by decide, by decide, by decide, by decide⟩ <| .plain ⟨by decide, by decide, by decide, by decide⟩ <|
        .plain ⟨by decide, by decide, by decide, by decide⟩ .nil
    · exact .plain ⟨by decide, by decide, by decide, by decide⟩ <| .plain ⟨by decide, by decide, by decide, by decide⟩ <|
        .plain ⟨by decide, by decide, by decide, by decide⟩ <| .plain ⟨by decide, by decide, by decide, by decide⟩ .nil
  · rintro ⟨_, h⟩
    revert h
    decide +kernel
  · obtain ⟨t, s', h1, h2⟩ := returns_of_holds (x := noExts) (r := .action_stmt) (s := commaLine) (q := fun t _ => t.isNone) 60 (by decide +kernel)
    cases t with
    | none => exact ⟨s', h1⟩
    | some t => cases h2
  · have h : ∀ tag ∈ [Tag.SG_WRITE_STMT, myWriteStmt],
        holdsFor (runClient (writeComma tag) 60 commaLine) (fun t _ => match t with | some n => n.tag == tag | none => false) = true := by
      decide +kernel
    intro tag ht
    have h := h tag ht
    match hw : runClient (writeComma tag) 60 commaLine, h with
    | .ok (some n, t), h => exact ⟨n, t, client_of 60 hw, by simpa using (show (n.tag == tag) = true from h)⟩
    | .ok (none, t), h => cases h
    | .error e, h => cases h

/-- A parser that cannot get to `procedure_designator`: `go to` and a name, whole. -/
example : (P.seq Tag.SG_GOTO_STMT [.tok Tag.KW_GO, .tok Tag.KW_TO, .name, .peek Tag.BAD]).good = true ∧
    (P.seq Tag.SG_GOTO_STMT [.tok Tag.KW_GO, .tok Tag.KW_TO, .name, .peek Tag.BAD]).starsTake R.takes = true ∧
    (P.seq Tag.SG_GOTO_STMT [.tok Tag.KW_GO, .tok Tag.KW_TO, .name, .peek Tag.BAD]).treeEnds R.endsStmt = true ∧
    (P.seq Tag.SG_GOTO_STMT [.tok Tag.KW_GO, .tok Tag.KW_TO, .name, .peek Tag.BAD]).calls (fun r => R.designates.contains r) = false := by
  decide +kernel

end SP
end FLPR
