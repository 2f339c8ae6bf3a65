import Verif.Apps.ModuleLemmas
/-!
# Lemmas for C73: `has_call_named` and `find_use_module_name` on the trees that the parsers make
-/

namespace FLPR
namespace SP
open Spec

/-! ### Call statements -/

/-- Where `procedure_designator` takes the designator to end. -/
theorem designatorEnd_pair {s : Strm} (h : GoodStmt s) {e : Nat} (he : designatorEnd s = .ok (s.goto e)) (hpe : s.pos < e) :
    ParenPair (tagsOf s) e (s.hi - 1) ∨ e = s.hi := by
  have hlen := h.hi_len
  have hlo := h.lo_pos
  have hhi := h.pos_hi
  have hg : GoodStream (s.goto s.hi) := by
    refine ⟨by simp; omega, by simp, by simpa using hlen, ?_⟩
    intro t ht
    exact (h.tags t.token (List.mem_map.mpr ⟨t, ht, rfl⟩)).2.1
  obtain ⟨hyes, hno⟩ := C24_open (s.goto s.hi) hg
  simp only [Strm.goto_lo, Strm.goto_pos, Strm.goto_goto] at hyes hno
  rw [designatorEnd, Strm.consumeUntilEol] at he
  by_cases hex : ∃ i, s.lo ≤ i ∧ s.lo < s.hi ∧ ParenPair (tagsOf s) i (s.hi - 1)
  · obtain ⟨i, hi1, hi2, hpair⟩ := hex
    rw [hyes i hi1 hi2 hpair, Res.ok_bind, if_pos rfl, Strm.putBack_ok (by simp; omega)] at he
    injection he with he
    have := congrArg Strm.pos he
    simp at this
    rw [← this]
    exact .inl hpair
  · rw [hno hex, Res.ok_bind, if_neg (by simp)] at he
    injection he with he
    right
    by_cases hc : s.lo < s.hi ∧ (tagsOf (s.goto s.hi))[s.hi - 1]? = some Tag.TK_PARENR
    · have he : s.goto s.lo = s.goto e := (if_pos hc).symm.trans he
      have : s.lo = e := congrArg Strm.pos he
      omega
    · have he : s.goto s.hi = s.goto e := (if_neg hc).symm.trans he
      exact (congrArg Strm.pos he).symm

/-- The tree of a call, with the tokens that its parts take. -/
theorem call_parts {x : Exts} (hx : GoodExts x) {s q : Strm} {t : SNode} (hs : GoodStmt s) (h : Returns x .call_stmt s (.ok (some t, q))) :
    ∃ i d args pre j a, t.kids = leafAt Tag.KW_CALL i :: d :: args ∧ d.tag = Tag.SG_PROCEDURE_DESIGNATOR ∧
      d.kids = pre ++ [leafAt Tag.TK_NAME j] ∧ s.all[j]? = some a ∧ (pre = [] ∨ ∃ p ks, pre = p :: ks ∧ p.tag = Tag.SG_PART_REF) ∧
      Callee (restOf s) a := by
  obtain ⟨i, d, args, _, hk, hd, ⟨pre, j, a, hdk, ha, hna, hpre⟩, _⟩ := C72_call x s q t h
  have hcov := whole_of hx (r := .call_stmt) rfl (by decide) hs h
  have hall := covers_kids hcov (by rw [hk]; simp)
  rw [hk, CoversAll] at hall
  obtain ⟨_, m1, hl1, hall⟩ := hall
  rw [CoversAll] at hall
  obtain ⟨_, m, hcd, hca⟩ := hall
  obtain ⟨rfl, rfl, hkw⟩ := covers_leaf hl1
  obtain ⟨c, hc, hct⟩ := leafTag_tok hkw (by decide)
  -- the end of the designator
  obtain ⟨n, hn⟩ := h.eval
  obtain ⟨n', w, hw, hok, hwk, _⟩ := Proc.seq_rule (r := .call_stmt) rfl hn
  obtain ⟨c', hlt, _, _, _, hw⟩ := seqLoop_tok (by decide) (by decide) hs hw hok
  have hs1 : GoodStmt (s.goto (s.pos + 1)) := goto_good hs (Nat.le_succ _) hlt
  obtain ⟨o, ho, hook, hw⟩ := seqLoop_first hw hok
  obtain ⟨m', d', hd', hev⟩ := eval_rule ho hook
  obtain ⟨more, hmore⟩ := seqLoop_kids _ _ _ _ hw
  have hret : Returns x .procedure_designator (s.goto (s.pos + 1)) (.ok (some d', o.s)) := .of_eval m' hev
  have hdt : d'.tag = Tag.SG_PROCEDURE_DESIGNATOR := by
    have := runBody_tag (eval_tag (x := x) grammar_rootTag m') (grammar_rootTag .procedure_designator) hev rfl
    rw [this]; decide +kernel
  have hdd : d' = d := by
    rw [(hoistBack_spread _ _).1, hd', spread, if_neg (by rw [hdt]; decide)] at hmore
    rw [hwk, hmore] at hk
    simp only [SNode.kids, List.nil_append, List.cons_append, List.cons.injEq] at hk
    exact hk.2.1
  subst hdd
  obtain ⟨_, hq2, hq3, hq4⟩ := C26_covers_partial x hx .procedure_designator _ _ d' hs1 hret
  have hm : m = o.s.pos := covers_unique hcd hq4
  have hend : designatorEnd (s.goto (s.pos + 1)) = .ok ((s.goto (s.pos + 1)).goto m) := by
    rw [evalRule, show R.body .procedure_designator = .procDesignator _ from rfl, runBody, runDesignator] at hev
    pbind hev with e he
    pbind hev with r hr
    pbind hev with o2 ho2
    injection hev with hev
    injection hev with _ hev
    rw [up_ok he, hev, hm]
    exact congrArg Except.ok hq3
  -- the name
  have hdc := covers_kids hcd (by rw [hdk]; simp)
  rw [hdk] at hdc
  obtain ⟨j', hpc, hjc⟩ := coversAll_split hdc
  rw [CoversAll] at hjc
  obtain ⟨_, m2, hj1, hj2⟩ := hjc
  rw [CoversAll] at hj2
  subst hj2
  obtain ⟨rfl, rfl, _⟩ := covers_leaf hj1
  have hle := coversAll_le hpc
  have hmh : j + 1 ≤ s.hi := by rw [hm]; exact hq2
  refine ⟨_, d', args, pre, j, a, hk, hd, hdk, ha, ?_, hna, c, (s.all.take j).drop (s.pos + 1), restOf (s.goto (j + 1)), ?_, hct, ?_, ?_⟩
  · rcases hpre with hp | ⟨p, ks, m3, hp, hp'⟩
    · exact .inl hp
    · exact .inr ⟨p, _, hp, hp'⟩
  · rw [rest_split (q := j + 1) (by omega) hmh, slice_snoc (by omega) ha]
    have e1 : (s.all.take j).drop s.pos = c :: (s.all.take j).drop (s.pos + 1) := by
      have h0 : (s.all.take j)[s.pos]? = some c := by rw [List.getElem?_take_of_lt (by omega)]; exact hc
      obtain ⟨h1, h2⟩ := List.getElem?_eq_some_iff.mp h0
      rw [List.drop_eq_getElem_cons h1, h2]
    rw [e1]
    simp
  · rcases hpre with hp | ⟨p, ks, m3, hp, _⟩
    · left
      rw [hp, CoversAll] at hpc
      rw [← hpc]
      exact slice_none
    · right
      rw [hp] at hpc
      obtain ⟨m4, _, h5⟩ := coversAll_split hpc
      rw [CoversAll] at h5
      obtain ⟨_, m5, h6, h7⟩ := h5
      rw [CoversAll] at h7
      subst h7
      obtain ⟨rfl, h8, h9⟩ := covers_leaf h6
      obtain ⟨b, hb, hbt⟩ := leafTag_tok h9 (by decide)
      have h10 : s.pos + 1 ≤ m3 := by
        rename_i h11
        exact coversAll_le h11
      exact ⟨(s.all.take m3).drop (s.pos + 1), b, by rw [h8, slice_snoc h10 hb], hbt⟩
  · rcases designatorEnd_pair hs1 hend (by simp; omega) with hp | hp
    · obtain ⟨mid, g1, g2, _⟩ := pair_rest hp
      exact .inr ⟨mid, g1, g2⟩
    · left
      have : j + 1 = s.hi := hp
      rw [this, restOf]
      exact slice_none

theorem callee_unique {ts : List Tok} {a a' : Tok} (ht : ∀ t ∈ ts.map (·.token), LexerTag t) (h : Callee ts a) (h' : Callee ts a') : a = a' := by
  obtain ⟨hn, k, d, args, e1, _, _, e4⟩ := h
  obtain ⟨hn', k', d', args', e1', _, _, e4'⟩ := h'
  have last : ∀ {k a : Tok} {d args : List Tok}, ts = k :: (d ++ a :: args) → NameTag a.token →
      (args = [] ∨ ∃ mid, args.map (·.token) = Tag.TK_PARENL :: (mid ++ [Tag.TK_PARENR]) ∧ BalancedParens mid) →
      (args = [] ∧ ts.getLast? = some a) ∨ ((∃ b, ts.getLast? = some b ∧ ¬ NameTag b.token) ∧ args ≠ [] ∧
        ParenPair (ts.map (·.token)) (d.length + 2) (ts.length - 1)) := by
    intro k a d args e1 hn e4
    rcases e4 with rfl | ⟨mid, h1, h2⟩
    · exact .inl ⟨rfl, by rw [e1]; simp [List.getLast?_cons]⟩
    · right
      have hne : args ≠ [] := by rintro rfl; cases h1
      obtain ⟨args0, b, rfl⟩ := (List.eq_nil_or_concat args).resolve_left hne
      have hb : b.token = Tag.TK_PARENR := by
        rw [List.concat_eq_append, List.map_append, ← List.cons_append] at h1
        exact (List.cons.inj (List.append_inj_right' h1 rfl)).1
      refine ⟨⟨b, by rw [e1]; simp [List.getLast?_append, List.getLast?_cons], by rw [hb]; decide⟩, hne, ?_⟩
      refine ⟨(k :: (d ++ [a])).map (·.token), mid, [], ?_, by simp, ?_, h2⟩
      · rw [e1]
        simp only [List.map_cons, List.map_append, List.cons_append, List.append_assoc, List.nil_append, List.map_nil] at h1 ⊢
        rw [h1]
      · have hl := congrArg List.length h1
        rw [e1]
        simp at hl ⊢
        omega
  rcases last e1 hn e4 with ⟨_, h2⟩ | ⟨⟨b, b1, b2⟩, b3, b4⟩ <;> rcases last e1' hn' e4' with ⟨_, h2'⟩ | ⟨⟨b', b1', b2'⟩, b3', b4'⟩
  · exact Option.some.inj (h2.symm.trans h2')
  · rw [h2] at b1'
    exact absurd hn (by rw [Option.some.inj b1']; exact b2')
  · rw [h2'] at b1
    exact absurd hn' (by rw [Option.some.inj b1]; exact b2)
  · have hl := paren_unique ht b4 b4'
    have g1 : ts[d.length + 1]? = some a := by rw [e1]; simp
    have g2 : ts[d'.length + 1]? = some a' := by rw [e1']; simp
    have : d.length = d'.length := by omega
    rw [this, g2] at g1
    exact (Option.some.inj g1).symm

/-! ### If statements -/

theorem unbroken_wn {w : List Int} (h : Unbroken w) : WellNested w := by
  induction h with
  | nil => exact .nil
  | plain h1 _ _ _ _ ih => exact .plain h1 ih
  | paren h1 _ ih => exact .paren h1 ih
  | bracket h1 _ ih => exact .bracket h1 ih

theorem ifHead_shape {w : List Tok} (h : ifHead.Is w) :
    ∃ e, WellNested e ∧ w.map (·.token) = Tag.KW_IF :: Tag.TK_PARENL :: (e ++ [Tag.TK_PARENR]) := by
  obtain ⟨u1, v1, rfl, ⟨a, rfl, ha⟩, u2, v2, rfl, hp, rfl⟩ := h
  obtain ⟨u3, v3, rfl, ⟨b, rfl, hb⟩, u4, v4, rfl, he, u5, v5, rfl, ⟨c, rfl, hc⟩, rfl⟩ := hp
  exact ⟨u4.map (·.token), unbroken_wn he.1, by simp [ha, hb, hc]⟩

theorem ifHead_unique {w w' r r' : List Tok} (h : ifHead.Is w) (h' : ifHead.Is w') (he : w ++ r = w' ++ r') : w.length = w'.length := by
  obtain ⟨e, h1, h2⟩ := ifHead_shape h
  obtain ⟨e', h1', h2'⟩ := ifHead_shape h'
  have hm := congrArg (List.map (·.token)) he
  rw [List.map_append, List.map_append, h2, h2'] at hm
  simp only [List.cons_append, List.cons.injEq, List.append_assoc, true_and, List.nil_append] at hm
  have hl : e.length = e'.length := by
    have g := scanP_close (rest := r.map (·.token)) h1
    have g' := scanP_close (rest := r'.map (·.token)) h1'
    rw [hm, g'] at g
    omega
  have a1 := congrArg List.length h2
  have a2 := congrArg List.length h2'
  simp at a1 a2
  omega

theorem ifHead_form : (toForm 40 (.parens Tag.HOIST [.rule .logical_expr])).any (fun F => sameForm F.erase (.paren .expr)) = true := by
  decide +kernel

/-- The tree of an if statement: what is behind the parentheses is the tree of the action statement there. -/
theorem if_parts {s q : Strm} {t : SNode} (hs : GoodStmt s) (h : Returns noExts .if_stmt s (.ok (some t, q))) :
    ∃ i w a b c ta k1 q', t.kids = [leafAt Tag.KW_IF k1, a, b, c, ta] ∧ s.pos ≤ i ∧ i ≤ s.hi ∧ restOf s = w ++ restOf (s.goto i) ∧
      ifHead.Is w ∧ Returns noExts .action_stmt (s.goto i) (.ok (some ta, q')) := by
  obtain ⟨n, hn⟩ := h.eval
  obtain ⟨n', w, hw, hok, hwk, _⟩ := Proc.seq_rule (r := .if_stmt) rfl hn
  obtain ⟨c', hlt, hc2, hc3, _, hw⟩ := seqLoop_tok (by decide) (by decide) hs hw hok
  have hs1 : GoodStmt (s.goto (s.pos + 1)) := goto_good hs (Nat.le_succ _) hlt
  obtain ⟨o, ho, hook, hw⟩ := seqLoop_first hw hok
  obtain ⟨i, u, f1, f2, f3, f4, f5⟩ := eval_form ifHead_form hs1 ho hook
  have hbld := (eval_builds grammar_tidy noExts n').builds (.parens Tag.HOIST [.rule .logical_expr]) (s.goto (s.pos + 1)) o (by decide +kernel) ho hook
  obtain ⟨o2, ho2, hook2, hw⟩ := seqLoop_first hw hok
  obtain ⟨m', ta, hta, hev⟩ := eval_rule ho2 hook2
  obtain ⟨o3, ho3, hook3, hw⟩ := seqLoop_first hw hok
  have hb3 := builds_peek ((eval_builds grammar_tidy noExts n').builds (.peek Tag.BAD) o2.s o3 (by decide +kernel) ho3 hook3)
  rw [seqLoop] at hw
  injection hw with hw
  have hta' : ta.tag = Tag.SG_ACTION_STMT := by
    have := runBody_tag (eval_tag (x := noExts) grammar_rootTag m') (grammar_rootTag .action_stmt) hev rfl
    rw [this]; decide +kernel
  obtain ⟨a1, b1, e1, g1, g4⟩ := buildsSeq_cons (builds_hoist hbld)
  obtain ⟨a2, b2, rfl, g2, g5⟩ := buildsSeq_append (ps := [_]) g4
  obtain ⟨a3, b3, rfl, g3, g6⟩ := buildsSeq_cons g5
  cases buildsSeq_nil g6
  obtain ⟨l, _, rfl, -, -⟩ := builds_tok g1
  obtain ⟨m, _, rfl, -, -⟩ := builds_tok g3
  obtain ⟨a4, b4, rfl, g7, g8⟩ := buildsSeq_cons g2
  cases buildsSeq_nil g8
  obtain ⟨r4, k4, rfl, -⟩ := builds_tagIf (builds_comb rfl g7)
  have hgt : (s.goto (s.pos + 1)).goto i = s.goto i := rfl
  rw [hgt] at f1 f4
  refine ⟨i, c' :: u, leafAt Tag.TK_PARENL l, .node Tag.SG_LOGICAL_EXPR r4 k4, leafAt Tag.TK_PARENR m, ta, s.pos, o2.s, ?_, ?_, f3, ?_, ?_, ?_⟩
  · rw [hwk, ← hw]
    show (hoistBack _ _).kids = _
    have hsp : spread (some ta) = [ta] := if_neg (by rw [hta']; decide)
    rw [(hoistBack_spread _ _).1, (hoistBack_spread _ _).1, (hoistBack_spread _ _).1, hb3, e1, hta, hsp]
    simp [SNode.kids, putUnder, leafAt]
  · have : s.pos + 1 ≤ i := f2
    omega
  · rw [hc2, f4, List.cons_append]
  · exact ⟨[c'], u, rfl, ⟨c', rfl, hc3⟩, u, [], by simp, f5, rfl⟩
  · rw [f1] at hev
    exact .of_eval m' hev

/-! ### Use statements -/

theorem nat_builds {toks : List Tok} {x : Exts} {f : List SNode} (h : Builds toks x R.body (.opt (.seq Tag.HOIST [.opt (.seq Tag.HOIST
    [.tok Tag.TK_COMMA, .rule .module_nature]), .tok Tag.TK_DBL_COLON])) f) :
    f = [] ∨ (∃ i, f = [leafAt Tag.TK_DBL_COLON i]) ∨ ∃ i r n l j, n ∈ [Tag.KW_INTRINSIC, Tag.KW_NON_INTRINSIC] ∧
      f = [leafAt Tag.TK_COMMA i, .node Tag.SG_MODULE_NATURE r [leafAt n l], leafAt Tag.TK_DBL_COLON j] := by
  rcases builds_opt h with rfl | h
  · exact .inl rfl
  · obtain ⟨a1, b1, rfl, g1, g2⟩ := buildsSeq_cons (builds_hoist h)
    obtain ⟨a2, b2, rfl, g3, g4⟩ := buildsSeq_cons g2
    cases buildsSeq_nil g4
    obtain ⟨j, _, rfl, -, -⟩ := builds_tok g3
    rcases builds_opt g1 with rfl | g1
    · exact .inr (.inl ⟨j, rfl⟩)
    · obtain ⟨a3, b3, rfl, g5, g6⟩ := buildsSeq_cons (builds_hoist g1)
      obtain ⟨a4, b4, rfl, g7, g8⟩ := buildsSeq_cons g6
      cases buildsSeq_nil g8
      obtain ⟨i, _, rfl, -, -⟩ := builds_tok g5
      obtain ⟨r, ks, rfl, p, hp, g9⟩ := builds_alts (builds_comb rfl g7)
      simp only [List.mem_cons, List.not_mem_nil, or_false] at hp
      rcases hp with rfl | rfl
      · obtain ⟨l, _, rfl, -, -⟩ := builds_tok g9
        exact .inr (.inr ⟨i, r, Tag.KW_INTRINSIC, l, j, by simp, by simp [putUnder]⟩)
      · obtain ⟨l, _, rfl, -, -⟩ := builds_tok g9
        exact .inr (.inr ⟨i, r, Tag.KW_NON_INTRINSIC, l, j, by simp, by simp [putUnder]⟩)

theorem use_builds {toks : List Tok} {x : Exts} {p : P} {ps : List P} {f : List SNode} (h : BuildsSeq toks x R.body (.tok Tag.KW_USE ::
    .opt (.seq Tag.HOIST [.opt (.seq Tag.HOIST [.tok Tag.TK_COMMA, .rule .module_nature]), .tok Tag.TK_DBL_COLON]) :: .name :: p :: ps) f) :
    ∃ i nat j a more, f = leafAt Tag.KW_USE i :: (nat ++ leafAt Tag.TK_NAME j :: more) ∧ toks[j]? = some a ∧ NameTag a.token ∧
      (nat = [] ∨ (∃ i, nat = [leafAt Tag.TK_DBL_COLON i]) ∨ ∃ i r n l j, n ∈ [Tag.KW_INTRINSIC, Tag.KW_NON_INTRINSIC] ∧
      nat = [leafAt Tag.TK_COMMA i, .node Tag.SG_MODULE_NATURE r [leafAt n l], leafAt Tag.TK_DBL_COLON j]) := by
  obtain ⟨a1, b1, rfl, g1, g2⟩ := buildsSeq_cons h
  obtain ⟨a2, b2, rfl, g3, g4⟩ := buildsSeq_cons g2
  obtain ⟨a3, b3, rfl, g5, g6⟩ := buildsSeq_cons g4
  obtain ⟨i, _, rfl, -, -⟩ := builds_tok g1
  obtain ⟨j, a, rfl, ha, hn⟩ := builds_name g5
  exact ⟨i, a2, j, a, b3, by simp, ha, hn, nat_builds g3⟩

theorem use_parts {x : Exts} (hx : GoodExts x) {s q : Strm} {t : SNode} (hs : GoodStmt s) (h : Returns x .use_stmt s (.ok (some t, q))) :
    ∃ j a more, Apps.useCur t = .ok (leafAt Tag.TK_NAME j, more) ∧ s.all[j]? = some a ∧ UsedModule (restOf s) a := by
  have htag : t.tag = Tag.SG_USE_STMT := by
    obtain ⟨n, h⟩ := h.eval
    have := runBody_tag (eval_tag (x := x) grammar_rootTag n) (grammar_rootTag .use_stmt) h rfl
    rw [this]; decide +kernel
  obtain ⟨i, nat, j, a, more, hk, ha, hna, hnat⟩ : ∃ i nat j a more, t.kids = leafAt Tag.KW_USE i :: (nat ++ leafAt Tag.TK_NAME j :: more) ∧
      s.all[j]? = some a ∧ NameTag a.token ∧
      (nat = [] ∨ (∃ i, nat = [leafAt Tag.TK_DBL_COLON i]) ∨ ∃ i r n l j, n ∈ [Tag.KW_INTRINSIC, Tag.KW_NON_INTRINSIC] ∧
      nat = [leafAt Tag.TK_COMMA i, .node Tag.SG_MODULE_NATURE r [leafAt n l], leafAt Tag.TK_DBL_COLON j]) := by
    have hb := C72_builds x _ s q t h
    obtain ⟨r, ks, e, p, hp, g⟩ := builds_alts (builds_comb rfl hb)
    rw [spread, if_neg (by rw [htag]; decide), putUnder, if_neg (by decide)] at e
    injection e with e
    subst e
    simp only [List.mem_cons, List.not_mem_nil, or_false] at hp
    rcases hp with rfl | rfl
    · exact use_builds (builds_hoist g)
    · exact use_builds (builds_hoist g)
  obtain ⟨h1, h2, _, hcov⟩ := C26_covers_partial x hx .use_stmt s q t hs h
  have hall := covers_kids hcov (by rw [hk]; simp)
  rw [hk, CoversAll] at hall
  obtain ⟨_, m1, hl1, hall⟩ := hall
  obtain ⟨rfl, rfl, hkw⟩ := covers_leaf hl1
  obtain ⟨k, hk1, hk2⟩ := leafTag_tok hkw (by decide)
  obtain ⟨j', hn1, hall⟩ := coversAll_split hall
  rw [CoversAll] at hall
  obtain ⟨_, m2, hj, hmore⟩ := hall
  obtain ⟨rfl, rfl, _⟩ := covers_leaf hj
  have hle := coversAll_le hmore
  have hle1 := coversAll_le hn1
  refine ⟨j, a, more, ?_, ha, hna, k, (s.all.take j).drop (s.pos + 1), restOf (s.goto (j + 1)), ?_, hk2, ?_⟩
  · have hd : PP.Cur.down (t, []) = .ok (leafAt Tag.KW_USE s.pos, nat ++ leafAt Tag.TK_NAME j :: more) := by rw [PP.Cur.down]; simp only [hk]
    rw [Apps.useCur, Apps.need, if_pos htag, Res.ok_bind, hd, Res.ok_bind]
    rcases hnat with rfl | ⟨i, rfl⟩ | ⟨i, r, n, l, j', hn, rfl⟩
    · rfl
    · rfl
    · rfl
  · rw [rest_split (q := j + 1) (by omega) (by omega), slice_snoc (by omega) ha]
    have e1 : (s.all.take j).drop s.pos = k :: (s.all.take j).drop (s.pos + 1) := by
      have h0 : (s.all.take j)[s.pos]? = some k := by rw [List.getElem?_take_of_lt (by omega)]; exact hk1
      obtain ⟨h1, h2⟩ := List.getElem?_eq_some_iff.mp h0
      rw [List.drop_eq_getElem_cons h1, h2]
    rw [e1]
    simp
  · rcases hnat with rfl | ⟨i, rfl⟩ | ⟨i, r, n, l, j', hn, rfl⟩
    · rw [CoversAll] at hn1
      rw [← hn1]
      exact .inl slice_none
    · rw [CoversAll] at hn1
      obtain ⟨_, m, c1, c2⟩ := hn1
      rw [CoversAll] at c2
      subst c2
      obtain ⟨rfl, rfl, c3⟩ := covers_leaf c1
      obtain ⟨b, b1, b2⟩ := leafTag_tok c3 (by decide)
      rw [slice_snoc (Nat.le_refl _) b1, slice_none]
      exact .inr (.inl (by simp [b2]))
    · rw [CoversAll] at hn1
      obtain ⟨_, m, c1, c2⟩ := hn1
      rw [CoversAll] at c2
      obtain ⟨_, m', d1, d2⟩ := c2
      rw [CoversAll] at d2
      obtain ⟨_, m'', e1, e2⟩ := d2
      rw [CoversAll] at e2
      subst e2
      have f1 := covers_kids d1 (by simp [SNode.kids])
      simp only [SNode.kids] at f1
      rw [CoversAll] at f1
      obtain ⟨_, m3, f1, d2⟩ := f1
      rw [CoversAll] at d2
      subst d2
      obtain ⟨_, rfl, c3⟩ := covers_leaf c1
      obtain ⟨_, rfl, d3⟩ := covers_leaf f1
      obtain ⟨_, rfl, e3⟩ := covers_leaf e1
      obtain ⟨b, b1, b2⟩ := leafTag_tok c3 (by decide)
      obtain ⟨c, c1, c2⟩ := leafTag_tok d3 (by
        simp only [List.mem_cons, List.not_mem_nil, or_false] at hn
        rcases hn with rfl | rfl <;> decide)
      obtain ⟨d, d1, d2⟩ := leafTag_tok e3 (by decide)
      rw [slice_snoc (by omega) d1, slice_snoc (by omega) c1, slice_snoc (Nat.le_refl _) b1, slice_none]
      exact .inr (.inr ⟨n, hn, by simp [b2, c2, d2]⟩)

theorem usedModule_unique {ts : List Tok} {a a' : Tok} (h : UsedModule ts a) (h' : UsedModule ts a') : a = a' := by
  obtain ⟨hn, k, nat, rest, e1, _, e3⟩ := h
  obtain ⟨hn', k', nat', rest', e1', _, e3'⟩ := h'
  have key : ∀ {k a : Tok} {nat rest : List Tok}, ts = k :: (nat ++ a :: rest) → NameTag a.token →
      (nat = [] ∨ nat.map (·.token) = [Tag.TK_DBL_COLON] ∨
        ∃ n ∈ [Tag.KW_INTRINSIC, Tag.KW_NON_INTRINSIC], nat.map (·.token) = [Tag.TK_COMMA, n, Tag.TK_DBL_COLON]) →
      ∃ b, ts[1]? = some b ∧ ((NameTag b.token ∧ ts[1]? = some a) ∨ (b.token = Tag.TK_DBL_COLON ∧ ts[2]? = some a) ∨
        (b.token = Tag.TK_COMMA ∧ ts[4]? = some a)) := by
    intro k a nat rest e1 hn e3
    rcases e3 with rfl | h | ⟨n, _, h⟩
    · exact ⟨a, by rw [e1]; rfl, .inl ⟨hn, by rw [e1]; rfl⟩⟩
    · obtain ⟨b, rfl, hb⟩ : ∃ b, nat = [b] ∧ b.token = Tag.TK_DBL_COLON := by
        cases nat with
        | nil => cases h
        | cons b l =>
          cases l with
          | nil => exact ⟨b, rfl, by simpa using h⟩
          | cons c l => simp at h
      exact ⟨b, by rw [e1]; rfl, .inr (.inl ⟨hb, by rw [e1]; rfl⟩)⟩
    · obtain ⟨b, c, d, rfl, hb⟩ : ∃ b c d, nat = [b, c, d] ∧ b.token = Tag.TK_COMMA := by
        match nat, h with
        | [], h => cases h
        | [b], h => simp at h
        | [b, c], h => simp at h
        | [b, c, d], h => exact ⟨b, c, d, rfl, by simp at h; exact h.1⟩
        | b :: c :: d :: e :: l, h => simp at h
      exact ⟨b, by rw [e1]; rfl, .inr (.inr ⟨hb, by rw [e1]; rfl⟩)⟩
  have n1 : ¬ NameTag Tag.TK_DBL_COLON := by decide
  have n2 : ¬ NameTag Tag.TK_COMMA := by decide
  have n3 : Tag.TK_DBL_COLON ≠ Tag.TK_COMMA := by decide
  obtain ⟨b, hb, g⟩ := key e1 hn e3
  obtain ⟨b', hb', g'⟩ := key e1' hn' e3'
  rw [hb] at hb'
  injection hb' with hb'
  subst hb'
  rcases g with ⟨g1, g2⟩ | ⟨g1, g2⟩ | ⟨g1, g2⟩ <;> rcases g' with ⟨f1, f2⟩ | ⟨f1, f2⟩ | ⟨f1, f2⟩
  · exact Option.some.inj (g2.symm.trans f2)
  · rw [f1] at g1; exact absurd g1 n1
  · rw [f1] at g1; exact absurd g1 n2
  · rw [g1] at f1; exact absurd f1 n1
  · exact Option.some.inj (g2.symm.trans f2)
  · exact absurd (g1.symm.trans f1) n3
  · rw [g1] at f1; exact absurd f1 n2
  · exact absurd (f1.symm.trans g1) n3
  · exact Option.some.inj (g2.symm.trans f2)

end SP
end FLPR
