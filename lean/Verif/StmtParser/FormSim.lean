import Verif.StmtParser.FormRun
/-! # The parsers do what the forms do -/

namespace FLPR
namespace SP
open Spec

/-! ### The rest of a statement -/

theorem restOf_map (s : Strm) : (restOf s).map (·.token) = tokSlice (tagsOf s) s.pos s.hi := by
  rw [restOf, tokSlice, tagsOf, List.map_drop, List.map_take, List.drop_take]

theorem restOf_length {s : Strm} (h : GoodStmt s) : (restOf s).length = s.hi - s.pos := by
  have := h.hi_len
  rw [restOf, List.length_drop, List.length_take]; omega

theorem nameTag_iff {t : Int} {b : Bool} (h : Registry.isName t = .ok b) : b = decide (NameTag t) := by
  by_cases h0 : 0 ≤ t ∧ t < 610
  · have key : ∀ i : Fin 610, (match Registry.isName (i.val : Int) with
        | .ok b => b == decide (NameTag (i.val : Int)) | .error _ => true) = true := by decide +kernel
    have := key ⟨t.toNat, by omega⟩
    rw [show ((⟨t.toNat, by omega⟩ : Fin 610).val : Int) = t by simp; omega, h] at this
    simpa using this
  · exfalso
    rw [Registry.isName] at h
    have hn : t ≠ Tag.TK_NAME := by
      rintro rfl; exact h0 (by decide)
    rw [if_neg hn, Registry.builtin] at h
    have hl : Tag.table.length = 610 := by decide +kernel
    by_cases h1 : 0 ≤ t
    · rw [if_pos h1, List.getElem?_eq_none (by omega)] at h
      cases h
    · rw [if_neg h1] at h; cases h

theorem rest_cases {s : Strm} (h : GoodStmt s) :
    (s.pos = s.hi ∧ restOf s = [] ∧ s.peek = .ok Tag.BAD) ∨
    ∃ a, s.pos < s.hi ∧ restOf s = a :: restOf (s.goto (s.pos + 1)) ∧ s.peek = .ok a.token ∧
      LexerTag a.token ∧ s.peekTT 1 = .ok a ∧ s.all[s.pos]? = some a := by
  have hl := h.hi_len
  have hp := h.pos_hi
  by_cases he : s.pos = s.hi
  · refine .inl ⟨he, ?_, by rw [Strm.peek, if_pos he]⟩
    rw [restOf, he, List.drop_eq_nil_of_le (by rw [List.length_take]; omega)]
  · have hlt : s.pos < s.all.length := by omega
    have hd : derefTok s.all s.pos = .ok s.all[s.pos] := by
      rw [derefTok, if_pos hlt]; simp [hlt]
    refine .inr ⟨s.all[s.pos], by omega, ?_, ?_, ?_, ?_, List.getElem?_eq_getElem hlt⟩
    · rw [restOf, restOf, List.drop_eq_getElem_cons (by rw [List.length_take]; omega)]
      simp [Strm.goto]
    · rw [Strm.peek, if_neg he, hd]; rfl
    · exact h.tags _ (by rw [tagsOf]; exact List.mem_map.mpr ⟨_, List.getElem_mem hlt, rfl⟩)
    · rw [Strm.peekTT]
      simp only [Nat.sub_self, Nat.add_zero]
      rw [if_pos (by omega), if_pos he, hd]

theorem headTag_peek {s : Strm} (h : GoodStmt s) : s.peek = .ok (PForm.headTag (restOf s)) := by
  rcases rest_cases h with ⟨_, h2, h3⟩ | ⟨a, _, h2, h3, _⟩
  · rw [h2, h3]; rfl
  · rw [h2, h3]; rfl

/-- The parser left the stream as the form says. -/
def Agrees (r : Option (List Tok)) (s : Strm) (ok : Bool) (s' : Strm) : Prop :=
  match r with
  | none => ok = false ∧ s' = s
  | some r => ok = true ∧ ∃ q, s' = s.goto q ∧ s.pos ≤ q ∧ q ≤ s.hi ∧ restOf (s.goto q) = r

theorem agrees_none {s : Strm} {ok : Bool} {s' : Strm} {r : Option (List Tok)} (h : Agrees r s ok s')
    (ho : ok = false) : r = none ∧ s' = s := by
  cases r with
  | none => exact ⟨rfl, h.2⟩
  | some r => rw [h.1] at ho; cases ho

theorem agrees_some {s : Strm} {ok : Bool} {s' : Strm} {r : Option (List Tok)} (h : Agrees r s ok s')
    (ho : ok = true) : ∃ q, s' = s.goto q ∧ s.pos ≤ q ∧ q ≤ s.hi ∧ r = some (restOf (s.goto q)) := by
  cases r with
  | none => rw [h.1] at ho; cases ho
  | some r =>
    obtain ⟨_, q, h1, h2, h3, h4⟩ := h
    exact ⟨q, h1, h2, h3, by rw [h4]⟩

theorem agrees_refl {s : Strm} (h : GoodStmt s) : Agrees (some (restOf s)) s true s :=
  ⟨rfl, s.pos, (Strm.goto_self s).symm, le_refl _, h.pos_hi, by rw [Strm.goto_self]⟩

/-! ### Single tokens -/

theorem leaf_agrees {s : Strm} {o : Out} {tag : Int} (hlt : s.pos < s.hi) (h : leaf tag s = .ok o) :
    Agrees (some (restOf (s.goto (s.pos + 1)))) s o.ok o.s ∧ o.tree.isSome = o.ok := by
  obtain ⟨rfl, _⟩ := leaf_ok h
  exact ⟨⟨rfl, s.pos + 1, rfl, by omega, by omega, rfl⟩, rfl⟩

theorem no_agrees {s : Strm} {o : Out} (h : (Except.ok (noMatch s) : Res Out) = .ok o) :
    Agrees none s o.ok o.s ∧ o.tree.isSome = o.ok := by
  injection h with h; subst h
  exact ⟨⟨rfl, rfl⟩, rfl⟩

theorem runTok_agrees {s : Strm} (hs : GoodStmt s) {t : Int} (ht : t ≠ Tag.BAD) {o : Out}
    (h : runTok t s = .ok o) :
    Agrees ((PForm.tok t).run (restOf s)) s o.ok o.s ∧ o.tree.isSome = o.ok := by
  rw [runTok] at h
  rcases rest_cases hs with ⟨_, h2, h3⟩ | ⟨a, hlt, h2, h3, _⟩
  · rw [h3, Res.ok_bind, if_pos ht] at h
    rw [h2]; exact no_agrees h
  · rw [h3, Res.ok_bind] at h
    rw [h2, PForm.run, PForm.take1]
    by_cases he : t = a.token
    · rw [if_neg (by simpa using he)] at h
      rw [if_pos (by simp [he])]
      exact leaf_agrees hlt h
    · rw [if_pos he] at h
      rw [if_neg (by simpa using Ne.symm he)]
      exact no_agrees h

theorem runName_agrees {s : Strm} (hs : GoodStmt s) {o : Out} (h : runName s = .ok o) :
    Agrees (PForm.name.run (restOf s)) s o.ok o.s ∧ o.tree.isSome = o.ok := by
  rw [runName] at h
  rcases rest_cases hs with ⟨_, h2, h3⟩ | ⟨a, hlt, h2, h3, hlx, _⟩
  · rw [h3, Res.ok_bind, isName_bad, Res.ok_bind] at h
    rw [h2]; exact no_agrees h
  · obtain ⟨b, hb⟩ := hlx.1
    rw [h3, Res.ok_bind, hb, Res.ok_bind] at h
    rw [h2, PForm.run, PForm.take1, ← nameTag_iff hb]
    cases b
    · exact no_agrees h
    · exact leaf_agrees hlt h

theorem runLetter_agrees {s : Strm} (hs : GoodStmt s) {o : Out} (h : runLetter s = .ok o) :
    Agrees (PForm.letter.run (restOf s)) s o.ok o.s ∧ o.tree.isSome = o.ok := by
  rw [runLetter] at h
  rcases rest_cases hs with ⟨_, h2, h3⟩ | ⟨a, hlt, h2, h3, hlx, htt, _⟩
  · rw [h3, Res.ok_bind, isName_bad, Res.ok_bind] at h
    rw [h2]; exact no_agrees h
  · obtain ⟨b, hb⟩ := hlx.1
    rw [h3, Res.ok_bind, hb, Res.ok_bind, htt] at h
    rw [h2, PForm.run, PForm.take1, ← nameTag_iff hb]
    cases b
    · exact no_agrees h
    · simp only [if_true, Res.ok_bind] at h
      by_cases hl : a.text.length = 1
      · rw [if_neg (by simpa using hl)] at h
        rw [if_pos (by simp [hl])]
        exact leaf_agrees hlt h
      · rw [if_pos hl] at h
        rw [if_neg (by simp [hl])]
        exact no_agrees h

theorem runLiteral_agrees {s : Strm} (hs : GoodStmt s) {w : Str} {o : Out} (h : runLiteral w s = .ok o) :
    Agrees ((PForm.spelled w).run (restOf s)) s o.ok o.s ∧ o.tree.isSome = o.ok := by
  rw [runLiteral] at h
  rcases rest_cases hs with ⟨_, h2, h3⟩ | ⟨a, hlt, h2, h3, hlx, htt, _⟩
  · rw [h3, Res.ok_bind, isName_bad, Res.ok_bind] at h
    rw [h2]; exact no_agrees h
  · obtain ⟨b, hb⟩ := hlx.1
    rw [h3, Res.ok_bind, hb, Res.ok_bind, htt] at h
    rw [h2, PForm.run, PForm.take1, ← nameTag_iff hb]
    cases b
    · exact no_agrees h
    · simp only [if_true, Res.ok_bind] at h
      by_cases hl : a.lowerText.1 = w.map lowChar
      · rw [if_neg (by simpa using hl)] at h
        rw [if_pos (by simp [hl])]
        exact leaf_agrees hlt h
      · rw [if_pos hl] at h
        rw [if_neg (by simp [hl])]
        exact no_agrees h

theorem runListName_agrees {s : Strm} (hs : GoodStmt s) {w : Option SNode × Strm}
    (h : runListName s = .ok w) :
    (w.1 = none ∧ PForm.listName.run (restOf s) = none) ∨
    (∃ n, w.1 = some n) ∧ Agrees (PForm.listName.run (restOf s)) s true w.2 := by
  rw [runListName, Strm.peekAt] at h
  rcases rest_cases hs with ⟨he, h2, _⟩ | ⟨a, hlt, h2, h3, hlx, htt, _⟩
  · have : s.peekTT 1 = .ok badTok := by
      rw [Strm.peekTT]
      simp only [Nat.sub_self, Nat.add_zero]
      have := hs.hi_len
      rw [if_pos (by omega), if_neg (by simpa using he)]
    rw [this, Res.ok_bind, Res.ok_bind, show badTok.token = Tag.BAD from rfl, isName_bad,
      Res.ok_bind] at h
    injection h with h; subst h
    exact .inl ⟨rfl, by rw [h2]; rfl⟩
  · obtain ⟨b, hb⟩ := hlx.1
    rw [htt, Res.ok_bind, Res.ok_bind, hb, Res.ok_bind] at h
    rw [h2, PForm.run, PForm.take1, ← nameTag_iff hb]
    cases b
    · injection h with h; subst h
      exact .inl ⟨rfl, rfl⟩
    · simp only [if_true] at h
      have hg1 : GoodStmt (s.goto (s.pos + 1)) := GoodStmt_goto hs (by have := hs.lo_pos; omega) (by omega)
      have hp2 : s.peekAt 2 = .ok (PForm.headTag (restOf (s.goto (s.pos + 1)))) := by
        have hlen := hs.hi_len
        rw [Strm.peekAt, Strm.peekTT]
        simp only [Nat.add_one_sub_one]
        rw [if_pos (by omega)]
        rcases rest_cases hg1 with ⟨he, e2, _⟩ | ⟨a2, hlt2, e2, _, _, _, e7⟩
        · have he : s.pos + 1 = s.hi := he
          rw [if_neg (by simpa using he), e2]; rfl
        · have hlt2 : s.pos + 1 < s.hi := hlt2
          have e7 : s.all[s.pos + 1]? = some a2 := e7
          obtain ⟨hx, rfl⟩ := List.getElem?_eq_some_iff.mp e7
          rw [if_pos (by omega), derefTok, if_pos (by omega), e2]
          simp [hx, PForm.headTag]
      rw [hp2, Res.ok_bind] at h
      simp only [if_true, Option.bind_some]
      by_cases hm : PForm.headTag (restOf (s.goto (s.pos + 1))) ∈ PForm.afterName
      · rw [if_pos (by simpa [PForm.afterName] using hm)] at h
        rw [if_pos (by simpa using hm)]
        rbind h with ⟨r, s'⟩ hr
        obtain ⟨rfl, rfl, _⟩ := digest_ok hr
        injection h with h; subst h
        exact .inr ⟨⟨_, rfl⟩, rfl, s.pos + 1, rfl, by omega, by omega, rfl⟩
      · rw [if_neg (by simpa [PForm.afterName] using hm)] at h
        rw [if_neg (by simpa using hm)]
        injection h with h; subst h
        exact .inl ⟨rfl, rfl⟩

/-! ### Expressions and groups -/

/-- A tag that does not matter to `consume_until_break`. -/
def inert (t : Int) : Bool :=
  t != Tag.TK_PARENL && t != Tag.TK_PARENR && t != Tag.TK_BRACKETL && t != Tag.TK_BRACKETR &&
  t != Tag.BAD && t != Tag.TK_COMMA && t != Tag.TK_COLON && t != Tag.TK_EQUAL

theorem breakStep_inert {t d : Int} (h : inert t = true) : breakStep t d = .take d := by
  simp only [inert, Bool.and_eq_true, bne_iff_ne, ne_eq] at h
  obtain ⟨⟨⟨⟨⟨⟨⟨h1, h2⟩, h3⟩, h4⟩, h5⟩, h6⟩, h7⟩, h8⟩ := h
  simp [breakStep, h1, h2, h3, h4, h5, h6, h7, h8]

theorem scanN_inert {d : Int} : ∀ (pre ts : List Int), (∀ t ∈ pre, inert t = true) →
    PForm.scanN (pre ++ ts) d = (PForm.scanN ts d).map (· + pre.length) := by
  intro pre
  induction pre with
  | nil => intro ts _; simp
  | cons t pre ih =>
    intro ts h
    rw [List.cons_append, PForm.scanN, breakStep_inert (h t (by simp))]
    simp only
    rw [ih ts (fun u hu => h u (by simp [hu])), Option.map_map]
    congr 1

/-- Only tokens with tags from a set. -/
def PForm.toksIn (q : Int → Bool) : PForm → Bool
  | .eps => true
  | .never => true
  | .tok t => q t
  | .seq a b => a.toksIn q && b.toksIn q
  | .alt a b => a.toksIn q && b.toksIn q
  | _ => false

theorem run_toksIn {q : Int → Bool} : ∀ (F : PForm), F.toksIn q = true → ∀ ts r, F.run ts = some r →
    ∃ pre, ts = pre ++ r ∧ ∀ a ∈ pre, q a.token = true := by
  intro F
  induction F with
  | eps => intro _ ts r h; injection h with h; subst h; exact ⟨[], rfl, by simp⟩
  | never => intro _ ts r h; cases h
  | tok t =>
    intro hq ts r h
    cases ts with
    | nil => cases h
    | cons a ts =>
      rw [PForm.run, PForm.take1] at h
      split at h
      · next he =>
        injection h with h; subst h
        refine ⟨[a], rfl, ?_⟩
        have he : a.token = t := by simpa using he
        intro b hb
        rw [List.mem_singleton] at hb
        subst hb
        rw [he]; exact hq
      · cases h
  | seq a b iha ihb =>
    intro hq ts r h
    rw [PForm.toksIn, Bool.and_eq_true] at hq
    rw [PForm.run] at h
    obtain ⟨m, h1, h2⟩ := Option.bind_eq_some_iff.mp h
    obtain ⟨p1, rfl, e1⟩ := iha hq.1 _ _ h1
    obtain ⟨p2, rfl, e2⟩ := ihb hq.2 _ _ h2
    refine ⟨p1 ++ p2, by simp, ?_⟩
    intro x hx
    rcases List.mem_append.mp hx with hx | hx
    · exact e1 x hx
    · exact e2 x hx
  | alt a b iha ihb =>
    intro hq ts r h
    rw [PForm.toksIn, Bool.and_eq_true] at hq
    rw [PForm.run] at h
    split at h
    · next r' hr => injection h with h; subst h; exact iha hq.1 _ _ hr
    · exact ihb hq.2 _ _ h
  | _ => intro hq; cases hq

/-- What is known of the parser of real literals on a statement. -/
def RealOk (f : P → Strm → PRes Out) (real : P) (s : Strm) : Prop :=
  ∀ q o, s.lo ≤ q → q ≤ s.hi → (s.goto q).peek = .ok Tag.SG_SIGNIFICAND → f real (s.goto q) = .ok o →
    ∃ q', o.s = s.goto q' ∧ q < q' ∧ q' ≤ s.hi ∧ ∃ pre,
      tokSlice (tagsOf s) q s.hi = pre ++ tokSlice (tagsOf s) q' s.hi ∧ q + pre.length = q' ∧
      ∀ t ∈ pre, inert t = true

theorem untilBreak_run {f : P → Strm → PRes Out} {real : P} {s : Strm} (h : GoodStmt s)
    (hr : RealOk f real s) : ∀ n q k ks w, s.lo ≤ q → q ≤ s.hi →
    Closed opE clE k (tokSlice (tagsOf s) q s.hi) →
    untilBreak f real n (s.goto q) ((k + 1 : Nat) : Int) ks = .ok w →
    match PForm.scanN (tokSlice (tagsOf s) q s.hi) ((k + 1 : Nat) : Int) with
    | none => w.1 = none
    | some m => ∃ ks', w.1 = some ks' ∧ w.2 = s.goto (q + m) ∧ q + m ≤ s.hi ∧
        (ks' = [] ↔ ks = [] ∧ m = 0) := by
  intro n
  induction n with
  | zero => intro q k ks w _ _ _ h; cases h
  | succ n ih =>
    intro q k ks w h1 h2 hc hw
    rw [untilBreak] at hw
    have hgq := GoodStmt_goto h h1 h2
    have hlen := h.hi_len
    rcases peek_good hgq with ⟨he, hp⟩ | ⟨t, hlt, ht, hp, hlx⟩
    · have he : q = s.hi := he
      rw [hp] at hw
      simp only [up_of_ok, PRes.ok_bind] at hw
      have hk : k = 0 := by rw [he, slice_nil, Closed] at hc; exact hc
      subst hk
      rw [show breakStep Tag.BAD ((0 + 1 : Nat) : Int) = .stop from breakStep_bad] at hw
      injection hw with hw; subst hw
      rw [he, slice_nil, PForm.scanN]
      exact ⟨ks, rfl, by simp, by omega, by simp⟩
    · have hlt : q < s.hi := hlt
      have ht : (tagsOf s)[q]? = some t := ht
      rw [hp] at hw
      simp only [up_of_ok, PRes.ok_bind] at hw
      have hc0 := hc
      rw [slice_cons hlt ht] at hc
      rw [slice_cons hlt ht, PForm.scanN]
      cases hb : breakStep t ((k + 1 : Nat) : Int) with
      | stop =>
        rw [hb] at hw
        injection hw with hw; subst hw
        exact ⟨ks, rfl, by simp, by omega, by simp⟩
      | fail =>
        rw [hb] at hw
        injection hw with hw; subst hw
        rfl
      | take d' =>
        rw [hb] at hw
        simp only at hw
        obtain ⟨k', rfl, hc', hpl⟩ := breakStep_closed hb hc
        by_cases hsig : t = Tag.SG_SIGNIFICAND
        · subst hsig
          simp only [if_true] at hw
          pbind hw with o ho
          pbind hw with ks1 hks1
          obtain ⟨q', e1, e2, e3, pre, e4, e5, e6⟩ := hr q o h1 h2 hp ho
          have hk : k' = k := hpl (by decide) (by decide)
          subst hk
          obtain ⟨p0, pre, rfl⟩ : ∃ p0 pre', pre = p0 :: pre' := by
            cases pre with
            | nil => simp at e5; omega
            | cons a b => exact ⟨a, b, rfl⟩
          have e7 := e4
          rw [slice_cons hlt ht, List.cons_append] at e7
          injection e7 with e7 e8
          have hc2 : Closed opE clE k' (tokSlice (tagsOf s) q' s.hi) := by
            have := hc'
            rw [e8] at this
            clear e4 e5 e7 e8 hks1 hc0 hc' ho
            induction pre with
            | nil => exact this
            | cons a pre ihp =>
              have ha : inert a = true := e6 a (by simp)
              simp only [inert, Bool.and_eq_true, bne_iff_ne, ne_eq] at ha
              rw [List.cons_append, closed_plain (by simp [opE, ha]) (by simp [clE, ha])] at this
              exact ihp (fun t ht => e6 t (by
                rcases List.mem_cons.mp ht with h | h
                · simp [h]
                · simp [h])) this
          have hks : ks1 ≠ [] := by
            have := up_ok hks1
            rw [graftBack.eq_def] at this
            split at this
            · cases this
            · injection this with this; rw [← this]; simp
          rw [e1] at hw
          have := ih q' k' ks1 w (by omega) e3 hc2 hw
          simp only
          rw [e8, scanN_inert pre _ (fun t ht => e6 t (by simp [ht]))]
          rw [List.length_cons] at e5
          cases hsc : PForm.scanN (tokSlice (tagsOf s) q' s.hi) ((k' + 1 : Nat) : Int) with
          | none => rw [hsc] at this; exact this
          | some m =>
            rw [hsc] at this
            obtain ⟨ks', g1, g2, g3, g4⟩ := this
            refine ⟨ks', g1, by rw [g2]; congr 1; show q' + m = q + (m + pre.length + 1); omega,
              by show q + (m + pre.length + 1) ≤ s.hi; omega, ?_⟩
            rw [g4]
            show _ ↔ ks = [] ∧ m + pre.length + 1 = 0
            constructor
            · rintro ⟨h, _⟩; exact absurd h hks
            · rintro ⟨_, h⟩; omega
        · simp only [if_neg hsig] at hw
          pbind hw with r hd
          have hd := up_ok hd
          obtain ⟨r1, r2⟩ := r
          obtain ⟨rfl, rfl, _⟩ := digest_ok hd
          rw [Strm.goto_goto, Strm.goto_pos] at hw
          have := ih (q + 1) k' _ w (by omega) (by omega) hc' hw
          simp only
          cases hsc : PForm.scanN (tokSlice (tagsOf s) (q + 1) s.hi) ((k' + 1 : Nat) : Int) with
          | none => rw [hsc] at this; exact this
          | some m =>
            rw [hsc] at this
            obtain ⟨ks', g1, g2, g3, g4⟩ := this
            refine ⟨ks', g1, by rw [g2]; congr 1; show q + 1 + m = q + (m + 1); omega,
              by show q + (m + 1) ≤ s.hi; omega, ?_⟩
            rw [g4]
            simp

theorem runExpr_run {f : P → Strm → PRes Out} {real : P} {s : Strm} (h : GoodStmt s)
    (hr : RealOk f real s) {k : Nat} {tag : Int} {w : Option SNode × Strm}
    (hw : runExpr f k tag real s = .ok w) :
    (w.1 = none ∧ PForm.expr.run (restOf s) = none) ∨
    (∃ n, w.1 = some n) ∧ Agrees (PForm.expr.run (restOf s)) s true w.2 := by
  rw [runExpr, headTag_peek h] at hw
  simp only [up_of_ok, PRes.ok_bind] at hw
  rw [PForm.run, PForm.runExprL]
  split at hw
  · next hh =>
    injection hw with hw; subst hw
    rw [if_pos hh]
    exact .inl ⟨rfl, rfl⟩
  · next hh =>
    rw [if_neg hh]
    pbind hw with v hv
    have h1 := untilBreak_run h hr k s.pos 0 [] v h.lo_pos h.pos_hi (closed_at delimsE h h.lo_pos)
      (by rw [Strm.goto_self]; exact hv)
    rw [restOf_map]
    rw [show ((0 + 1 : Nat) : Int) = 1 from rfl] at h1
    cases hsc : PForm.scanN (tokSlice (tagsOf s) s.pos s.hi) 1 with
    | none =>
      rw [hsc] at h1
      have h1 : v.1 = none := h1
      rw [h1] at hw
      injection hw with hw; subst hw
      exact .inl ⟨rfl, rfl⟩
    | some m =>
      rw [hsc] at h1
      obtain ⟨ks', g1, g2, g3, g4⟩ := h1
      rw [g1] at hw
      cases m with
      | zero =>
        have : ks' = [] := g4.mpr ⟨rfl, rfl⟩
        subst this
        injection hw with hw; subst hw
        exact .inl ⟨rfl, rfl⟩
      | succ m =>
        cases ks' with
        | nil => have := g4.mp rfl; omega
        | cons a as =>
          simp only at hw
          pbind hw with n hn
          injection hw with hw; subst hw
          refine .inr ⟨⟨n, rfl⟩, rfl, s.pos + (m + 1), g2, by omega, g3, ?_⟩
          rw [restOf, restOf, Strm.goto, List.drop_drop]

theorem parensLoop_run {s : Strm} (h : GoodStmt s) : ∀ n q k ks w, s.lo ≤ q → q ≤ s.hi →
    Closed opP clP k (tokSlice (tagsOf s) q s.hi) →
    parensLoop n (s.goto q) (k : Int) ks = .ok w →
    w.2 = s.goto (q + PForm.scanP (tokSlice (tagsOf s) q s.hi) k) ∧
      q + PForm.scanP (tokSlice (tagsOf s) q s.hi) k ≤ s.hi := by
  intro n
  induction n with
  | zero => intro q k ks w _ _ _ h; cases h
  | succ n ih =>
    intro q k ks w h1 h2 hc hw
    rw [parensLoop] at hw
    have hgq := GoodStmt_goto h h1 h2
    have hlen := h.hi_len
    cases k with
    | zero =>
      rw [if_neg (by simp)] at hw
      injection hw with hw; subst hw
      have : PForm.scanP (tokSlice (tagsOf s) q s.hi) 0 = 0 := by
        cases tokSlice (tagsOf s) q s.hi <;> rfl
      rw [this]
      exact ⟨rfl, by omega⟩
    | succ k =>
      rw [if_pos (by omega)] at hw
      rcases peek_good hgq with ⟨he, hp⟩ | ⟨t, hlt, ht, hp, hlx⟩
      · exfalso
        have he : q = s.hi := he
        rw [he, slice_nil, Closed] at hc
        omega
      · have hlt : q < s.hi := hlt
        have ht : (tagsOf s)[q]? = some t := ht
        rw [hp] at hw
        simp only [up_of_ok, PRes.ok_bind] at hw
        rw [slice_cons hlt ht] at hc ⊢
        rw [PForm.scanP]
        by_cases hl : t = Tag.TK_PARENL
        · rw [if_pos hl] at hw
          pbind hw with r hd
          have hd := up_ok hd
          obtain ⟨r1, r2⟩ := r
          obtain ⟨rfl, rfl, _⟩ := digest_ok hd
          rw [Strm.goto_goto, Strm.goto_pos] at hw
          rw [closed_open (by simp [opP, hl])] at hc
          have := ih (q + 1) (k + 2) _ w (by omega) (by omega) hc
            (by rw [show ((k + 2 : Nat) : Int) = ((k + 1 : Nat) : Int) + 1 by omega]; exact hw)
          rw [if_pos hl]
          exact ⟨by rw [this.1]; congr 1; omega, by omega⟩
        · rw [if_neg hl] at hw ⊢
          by_cases hr : t = Tag.TK_PARENR
          · rw [if_pos hr] at hw ⊢
            pbind hw with r hd
            have hd := up_ok hd
            obtain ⟨r1, r2⟩ := r
            obtain ⟨rfl, rfl, _⟩ := digest_ok hd
            rw [Strm.goto_goto, Strm.goto_pos] at hw
            rw [closed_close (by simp [opP, hl]) (by simp [clP, hr])] at hc
            have := ih (q + 1) k _ w (by omega) (by omega) hc
              (by rw [show ((k : Nat) : Int) = ((k + 1 : Nat) : Int) - 1 by omega]; exact hw)
            exact ⟨by rw [this.1]; congr 1; omega, by omega⟩
          · rw [if_neg hr] at hw ⊢
            rw [if_neg hlx.2.1] at hw
            pbind hw with r hd
            have hd := up_ok hd
            obtain ⟨r1, r2⟩ := r
            obtain ⟨rfl, rfl, _⟩ := digest_ok hd
            rw [Strm.goto_goto, Strm.goto_pos] at hw
            rw [closed_plain (by simp [opP, hl]) (by simp [clP, hr])] at hc
            have := ih (q + 1) (k + 1) _ w (by omega) (by omega) hc hw
            exact ⟨by rw [this.1]; congr 1; omega, by omega⟩

theorem runParens_run {s : Strm} (h : GoodStmt s) {k : Nat} {w : Option SNode × Strm}
    (hw : runParens k s = .ok w) :
    (w.1 = none ∧ PForm.group.run (restOf s) = none) ∨
    (∃ n, w.1 = some n) ∧ Agrees (PForm.group.run (restOf s)) s true w.2 := by
  rw [runParens] at hw
  rcases rest_cases h with ⟨he, h2, hp⟩ | ⟨a, hlt, h2, hp, hlx, _, hga⟩
  · rw [hp] at hw
    simp only [up_of_ok, PRes.ok_bind] at hw
    rw [if_pos (by decide)] at hw
    injection hw with hw; subst hw
    exact .inl ⟨rfl, by rw [h2]; rfl⟩
  · rw [hp] at hw
    simp only [up_of_ok, PRes.ok_bind] at hw
    rw [h2, PForm.run, PForm.runGroupL]
    by_cases hl : a.token = Tag.TK_PARENL
    · rw [if_neg (by simpa using hl)] at hw
      rw [if_pos hl]
      pbind hw with r hd
      have hd := up_ok hd
      obtain ⟨r1, r2⟩ := r
      obtain ⟨rfl, rfl, _⟩ := digest_ok hd
      dsimp only at hw
      pbind hw with v hv
      pbind hw with n hn
      injection hw with hw; subst hw
      have hlo := h.lo_pos
      have hc : Closed opP clP 1 (tokSlice (tagsOf s) (s.pos + 1) s.hi) := by
        have := closed_at delimsP h hlo
        rw [slice_cons hlt (t := a.token) (by rw [tagsOf, List.getElem?_map, hga]; rfl),
          closed_open (by simp [opP, hl])] at this
        exact this
      have := parensLoop_run h _ (s.pos + 1) 1 _ v (by omega) (by omega) hc hv
      refine .inr ⟨⟨n, rfl⟩, rfl, _, this.1, by omega, this.2, ?_⟩
      rw [restOf_map]
      rw [restOf, restOf, Strm.goto, Strm.goto, List.drop_drop]
      rfl
    · rw [if_pos hl] at hw
      rw [if_neg hl]
      injection hw with hw; subst hw
      exact .inl ⟨rfl, rfl⟩

/-! ### The combinators -/

theorem goto_restOf {s : Strm} {q : Nat} : restOf (s.goto q) = (s.all.take s.hi).drop q := rfl

theorem agrees_trans {s : Strm} {q : Nat} {r : Option (List Tok)} {ok : Bool} {s' : Strm}
    (h1 : s.pos ≤ q) (h : Agrees r (s.goto q) ok s') (ho : ok = true) : Agrees r s ok s' := by
  obtain ⟨q2, e1, e2, e3, e4⟩ := agrees_some h ho
  subst e4
  have e2 : q ≤ q2 := e2
  exact ⟨ho, q2, by rw [e1, Strm.goto_goto], by omega, e3, by rw [Strm.goto_goto]⟩

section comb
variable {f : P → Strm → PRes Out}

theorem altsLoop_run {s : Strm} {g : P → Option PForm}
    (hf : ∀ p F o, g p = some F → f p s = .ok o → Agrees (F.run (restOf s)) s o.ok o.s) :
    ∀ ps Fs o, formsOf g ps = some Fs → altsLoop f ps s = .ok o →
    Agrees ((PForm.alts Fs).run (restOf s)) s o.ok o.s ∧ (o.ok = false → o.tree = none) := by
  intro ps
  induction ps with
  | nil =>
    intro Fs o h1 h2
    injection h1 with h1; subst h1
    injection h2 with h2; subst h2
    exact ⟨⟨rfl, rfl⟩, fun _ => rfl⟩
  | cons p ps ih =>
    intro Fs o h1 h2
    rw [formsOf] at h1
    obtain ⟨F, e1, e2⟩ := Option.bind_eq_some_iff.mp h1
    obtain ⟨Gs, e3, rfl⟩ := Option.map_eq_some_iff.mp e2
    rw [altsLoop] at h2
    pbind h2 with o1 ho1
    have ha := hf p F o1 e1 ho1
    rw [PForm.alts, PForm.run]
    cases hok : o1.ok with
    | true =>
      rw [hok, if_pos rfl] at h2
      injection h2 with h2; subst h2
      obtain ⟨q, _, _, _, hr⟩ := agrees_some ha hok
      rw [hr] at ha ⊢
      exact ⟨ha, fun h => by rw [hok] at h; cases h⟩
    | false =>
      rw [hok, if_neg (by simp)] at h2
      obtain ⟨hr, hss⟩ := agrees_none ha hok
      rw [hss] at h2
      rw [hr]
      exact ih Gs o e3 h2

theorem seqLoop_run {s : Strm} (hs : GoodStmt s) {g : P → Option PForm}
    (hf : ∀ p F q o, s.lo ≤ q → q ≤ s.hi → g p = some F → f p (s.goto q) = .ok o →
      Agrees (F.run (restOf (s.goto q))) (s.goto q) o.ok o.s) :
    ∀ ps Fs q acc w, s.pos ≤ q → q ≤ s.hi → formsOf g ps = some Fs → seqLoop f ps (s.goto q) acc = .ok w →
    (w.2.1 = false ∧ (PForm.seqs Fs).run (restOf (s.goto q)) = none) ∨
      (w.2.1 = true ∧ Agrees ((PForm.seqs Fs).run (restOf (s.goto q))) s true w.2.2) := by
  intro ps
  induction ps with
  | nil =>
    intro Fs q acc w h1 h2 h3 h4
    injection h3 with h3; subst h3
    injection h4 with h4; subst h4
    exact .inr ⟨rfl, rfl, q, rfl, h1, h2, rfl⟩
  | cons p ps ih =>
    intro Fs q acc w h1 h2 h3 h4
    have hlo := hs.lo_pos
    rw [formsOf] at h3
    obtain ⟨F, e1, e2⟩ := Option.bind_eq_some_iff.mp h3
    obtain ⟨Gs, e3, rfl⟩ := Option.map_eq_some_iff.mp e2
    rw [seqLoop] at h4
    pbind h4 with o1 ho1
    have ha := hf p F q o1 (by omega) h2 e1 ho1
    rw [PForm.seqs, PForm.run]
    cases hok : o1.ok with
    | true =>
      rw [hok, if_pos rfl] at h4
      obtain ⟨q2, e4, e5, e6, hr⟩ := agrees_some ha hok
      rw [e4, Strm.goto_goto] at h4
      rw [hr, Strm.goto_goto, Option.bind_some]
      have e5 : q ≤ q2 := e5
      exact ih Gs q2 _ w (by omega) e6 e3 h4
    | false =>
      rw [hok, if_neg (by simp)] at h4
      obtain ⟨hr, _⟩ := agrees_none ha hok
      injection h4 with h4; subst h4
      rw [hr]
      exact .inl ⟨rfl, rfl⟩

theorem starLoop_stuck {p : P} {s : Strm} {o : Out} (h : f p s = .ok o) (hok : o.ok = true)
    (hs : o.s = s) : ∀ k acc, starLoop f p k s acc = .error .fuel := by
  intro k
  induction k with
  | zero => intro acc; rfl
  | succ k ih =>
    intro acc
    rw [starLoop, h, PRes.ok_bind, if_pos hok, hs, ih]

theorem starLoop_run {s : Strm} (hs : GoodStmt s) {p : P} {F : PForm}
    (hf : ∀ q o, s.lo ≤ q → q ≤ s.hi → f p (s.goto q) = .ok o →
      Agrees (F.run (restOf (s.goto q))) (s.goto q) o.ok o.s) :
    ∀ n k q acc w, (restOf (s.goto q)).length ≤ n → s.pos ≤ q → q ≤ s.hi →
      starLoop f p k (s.goto q) acc = .ok w →
      Agrees (some (PForm.starL F.run n (restOf (s.goto q)))) s true w.2 := by
  intro n
  have hlo := hs.lo_pos
  induction n with
  | zero =>
    intro k q acc w hn h1 h2 h
    rw [PForm.starL]
    cases k with
    | zero => cases h
    | succ k =>
      have h0 := h
      rw [starLoop] at h
      pbind h with o ho
      have ha := hf q o (by omega) h2 ho
      cases hok : o.ok with
      | true =>
        exfalso
        obtain ⟨q2, e4, e5, e6, hr⟩ := agrees_some ha hok
        have hg := GoodStmt_goto hs (q := q) (by omega) h2
        have hl := restOf_length hg
        have e5 : q ≤ q2 := e5
        have e6 : q2 ≤ s.hi := e6
        have hl : (restOf (s.goto q)).length = s.hi - q := hl
        have : q2 = q := by omega
        subst this
        rw [starLoop_stuck ho hok (by rw [e4, Strm.goto_goto])] at h0
        cases h0
      | false =>
        rw [hok, if_neg (by simp)] at h
        obtain ⟨_, hss⟩ := agrees_none ha hok
        injection h with h; subst h
        exact ⟨rfl, q, hss, h1, h2, rfl⟩
  | succ n ih =>
    intro k q acc w hn h1 h2 h
    rw [PForm.starL]
    cases k with
    | zero => cases h
    | succ k =>
      have h0 := h
      rw [starLoop] at h
      pbind h with o ho
      have ha := hf q o (by omega) h2 ho
      cases hok : o.ok with
      | true =>
        rw [hok, if_pos rfl] at h
        obtain ⟨q2, e4, e5, e6, hr⟩ := agrees_some ha hok
        rw [Strm.goto_goto] at e4 hr
        have e5 : q ≤ q2 := e5
        have e6 : q2 ≤ s.hi := e6
        have hl1 := restOf_length (GoodStmt_goto hs (q := q) (by omega) h2)
        have hl2 := restOf_length (GoodStmt_goto hs (q := q2) (by omega) e6)
        have hl1 : (restOf (s.goto q)).length = s.hi - q := hl1
        have hl2 : (restOf (s.goto q2)).length = s.hi - q2 := hl2
        rw [hr]
        simp only
        by_cases hlt : q < q2
        · rw [if_pos (by omega)]
          rw [e4] at h
          exact ih k q2 _ w (by omega) (by omega) e6 h
        · exfalso
          have : q2 = q := by omega
          subst this
          rw [starLoop_stuck ho hok e4] at h0
          cases h0
      | false =>
        rw [hok, if_neg (by simp)] at h
        obtain ⟨hr, hss⟩ := agrees_none ha hok
        injection h with h; subst h
        rw [hr]
        exact ⟨rfl, q, hss, h1, h2, rfl⟩

end comb

/-- Matching goes with having a tree. -/
theorem eval_withTree (g : R → Body) (x : Exts) : ∀ n p s o, p.withTree = true → eval g x n p s = .ok o →
    o.tree.isSome = o.ok := by
  intro n
  induction n with
  | zero => intro p s o _ h; cases h
  | succ n ih =>
    intro p s o hp h
    rw [eval] at h
    have leafc : ∀ o, LeafOut s o → o.tree.isSome = o.ok := by
      intro o ho
      rcases ho with rfl | ⟨tag, rfl, _⟩
      · rfl
      · rfl
    cases p with
    | alts tag ps =>
      rw [step] at h
      pbind h with o1 h1
      cases hok : o1.ok with
      | true =>
        rw [hok, if_pos rfl] at h
        pbind h with n hn
        injection h with h; subst h; rfl
      | false =>
        rw [hok, if_neg (by simp)] at h
        injection h with h; subst h
        have : ∀ ps s o, altsLoop (eval g x n) ps s = .ok o → o.ok = false → o.tree = none := by
          intro ps
          induction ps with
          | nil => intro s o h _; injection h with h; subst h; rfl
          | cons p ps ihp =>
            intro s o h hf
            rw [altsLoop] at h
            pbind h with o2 h2
            split at h
            · next ht => injection h with h; subst h; rw [hf] at ht; cases ht
            · exact ihp _ _ h hf
        rw [this _ _ _ h1 hok, hok]; rfl
    | letter => rw [step] at h; exact leafc _ (runLetter_out (up_ok h))
    | literal w => rw [step] at h; exact leafc _ (runLiteral_out (up_ok h))
    | name => rw [step] at h; exact leafc _ (runName_out (up_ok h))
    | neg p => cases hp
    | opt p => cases hp
    | peek t => cases hp
    | rule r =>
      rw [step] at h
      pbind h with w hw
      split at h
      · injection h with h; subst h; rfl
      · injection h with h; subst h; rfl
    | seq tag ps =>
      rw [step] at h
      pbind h with w hw
      split at h
      · pbind h with n hn
        injection h with h; subst h; rfl
      · injection h with h; subst h; rfl
    | star p =>
      rw [step] at h
      pbind h with w hw
      pbind h with n hn
      injection h with h; subst h; rfl
    | tagIf tag p =>
      rw [step] at h
      pbind h with o1 h1
      have := ih p s o1 hp h1
      cases ht : o1.tree with
      | none =>
        rw [ht] at h
        injection h with h; subst h
        exact this
      | some t =>
        rw [ht] at h
        pbind h with n hn
        injection h with h; subst h
        rw [ht] at this
        exact this
    | tok t => rw [step] at h; exact leafc _ (runTok_out (up_ok h))

/-- The bodies of expression rules run the parser of real literals. -/
theorem body_expr {r : R} {tag : Int} {real : P} (h : R.body r = .expr tag real) : real = G.realLiteral := by
  cases r <;> first | (injection h with _ h; exact h.symm) | cases h

def realForm : PForm :=
  .seq (.tok Tag.SG_SIGNIFICAND)
    (.seq (.alt (.seq (.tok Tag.SG_EXPONENT_LETTER) (.seq (.tok Tag.SG_EXPONENT) .eps)) .eps)
      (.seq (.alt (.seq (.tok Tag.TK_UNDERSCORE) (.seq (.tok Tag.SG_KIND_PARAM) .eps)) .eps) .eps))

theorem toForm_real (g : R → Body) : toFormG g 4 G.realLiteral = some realForm := rfl

/-- A parser that has a form does on a statement what the form says. -/
theorem eval_runG (g : R → Body) (hreals : ∀ r tag real, g r = .expr tag real → real = G.realLiteral) (x : Exts) :
    ∀ n k p F s o, toFormG g k p = some F → GoodStmt s →
    eval g x n p s = .ok o → Agrees (F.run (restOf s)) s o.ok o.s := by
  intro n
  induction n with
  | zero => intro k p F s o _ _ h; cases h
  | succ n ih =>
    intro k p F s o hF hs h
    rw [eval] at h
    cases k with
    | zero => cases hF
    | succ k =>
    have ihq : ∀ p F q o, s.lo ≤ q → q ≤ s.hi → toFormG g k p = some F →
        eval g x n p (s.goto q) = .ok o →
        Agrees (F.run (restOf (s.goto q))) (s.goto q) o.ok o.s :=
      fun p F q o h1 h2 hF h => ih k p F _ o hF (GoodStmt_goto hs h1 h2) h
    cases p with
    | alts tag ps =>
      rw [toFormG] at hF
      obtain ⟨Fs, e1, rfl⟩ := Option.map_eq_some_iff.mp hF
      rw [step] at h
      pbind h with o1 h1
      have ha := altsLoop_run (fun p F o hF h => ih k p F s o hF hs h) ps Fs o1 e1 h1
      cases hok : o1.ok with
      | true =>
        rw [hok, if_pos rfl] at h
        pbind h with m hm
        injection h with h; subst h
        rw [hok] at ha
        exact ha.1
      | false =>
        rw [hok, if_neg (by simp)] at h
        injection h with h; subst h
        exact ha.1
    | letter => injection hF with hF; subst hF; rw [step] at h; exact (runLetter_agrees hs (up_ok h)).1
    | literal w => injection hF with hF; subst hF; rw [step] at h; exact (runLiteral_agrees hs (up_ok h)).1
    | name => injection hF with hF; subst hF; rw [step] at h; exact (runName_agrees hs (up_ok h)).1
    | neg p =>
      cases p with
      | peek t =>
        injection hF with hF; subst hF
        rw [step] at h
        pbind h with o1 h1
        injection h with h; subst h
        cases n with
        | zero => cases h1
        | succ n =>
          rw [eval, step] at h1
          have h1 := up_ok h1
          rw [runPeek, headTag_peek hs, Res.ok_bind] at h1
          injection h1 with h1; subst h1
          rw [PForm.run]
          by_cases he : PForm.headTag (restOf s) = t
          · rw [if_pos he]
            exact ⟨by simp [he], rfl⟩
          · rw [if_neg he]
            have := agrees_refl hs
            have he' : (!(t == PForm.headTag (restOf s))) = true := by simpa using Ne.symm he
            rw [he']; exact this
      | _ => cases hF
    | opt p =>
      rw [toFormG] at hF
      obtain ⟨F', e1, rfl⟩ := Option.map_eq_some_iff.mp hF
      rw [step] at h
      pbind h with o1 h1
      injection h with h; subst h
      have ha := ih k p F' s o1 e1 hs h1
      rw [PForm.run]
      cases hok : o1.ok with
      | true =>
        obtain ⟨q, _, _, _, hr⟩ := agrees_some ha hok
        rw [hok] at ha
        rw [hr] at ha ⊢
        exact ha
      | false =>
        obtain ⟨hr, hss⟩ := agrees_none ha hok
        rw [hr]
        simp only
        rw [hss]
        exact agrees_refl hs
    | peek t =>
      injection hF with hF; subst hF
      rw [step] at h
      have h := up_ok h
      rw [runPeek, headTag_peek hs, Res.ok_bind] at h
      injection h with h; subst h
      rw [PForm.run]
      by_cases he : PForm.headTag (restOf s) = t
      · rw [if_pos he]
        have := agrees_refl hs
        simpa [he] using this
      · rw [if_neg he]
        exact ⟨by simpa using Ne.symm he, rfl⟩
    | rule r =>
      rw [toFormG] at hF
      rw [step] at h
      pbind h with w hw
      have fin : ∀ r : Option (List Tok), ((w.1 = none ∧ r = none) ∨
          (∃ n, w.1 = some n) ∧ Agrees r s true w.2) → w.2.goto s.pos = s → Agrees r s o.ok o.s := by
        rintro r (⟨e1, rfl⟩ | ⟨⟨m, e1⟩, e2⟩) e3
        · rw [e1] at h
          injection h with h; subst h
          exact ⟨rfl, e3⟩
        · rw [e1] at h
          injection h with h; subst h
          exact e2
      have back : w.2.goto s.pos = s := by
        have hf : Frame s w.2 := (runBody_adv (m := false) (fun h => by cases h)
          (eval_adv (m := false) (fun h => by cases h) n) hw).frame
        rw [hf.eq_goto, Strm.goto_goto, Strm.goto_self]
      cases hb : g r with
      | comb q =>
        rw [hb] at hF hw
        simp only at hF
        by_cases hq : q.withTree = true
        · rw [if_pos hq] at hF
          rw [runBody] at hw
          pbind hw with o1 h1
          injection hw with hw; subst hw
          have ha := ih k q F s o1 hF hs h1
          have ht := eval_withTree g x n q s o1 hq h1
          refine fin _ ?_ back
          cases hok : o1.ok with
          | true =>
            rw [hok] at ht ha
            exact .inr ⟨Option.isSome_iff_exists.mp ht, ha⟩
          | false =>
            rw [hok] at ht
            exact .inl ⟨by simpa using ht, (agrees_none ha hok).1⟩
        · rw [if_neg hq] at hF; cases hF
      | expr tag real =>
        rw [hb] at hF hw
        injection hF with hF; subst hF
        rw [runBody] at hw
        refine fin _ (runExpr_run hs ?_ hw) back
        have hreal := hreals _ _ _ hb
        subst hreal
        intro q o1 h1 h2 hp ho
        have hg := GoodStmt_goto hs h1 h2
        have ha := ih 4 _ _ _ o1 (toForm_real g) hg ho
        rcases rest_cases hg with ⟨_, _, h3⟩ | ⟨a, hlt, h4, h3, _⟩
        · rw [h3] at hp; cases hp
        · rw [h3] at hp
          have ht : a.token = Tag.SG_SIGNIFICAND := by injection hp
          rw [h4, realForm, PForm.run, PForm.run, PForm.take1, if_pos (by simp [ht]),
            Option.bind_some] at ha
          obtain ⟨r, hr⟩ : ∃ r, PForm.run
              (.seq (.alt (.seq (.tok Tag.SG_EXPONENT_LETTER) (.seq (.tok Tag.SG_EXPONENT) .eps)) .eps)
              (.seq (.alt (.seq (.tok Tag.TK_UNDERSCORE) (.seq (.tok Tag.SG_KIND_PARAM) .eps)) .eps) .eps))
              (restOf ((s.goto q).goto ((s.goto q).pos + 1))) = some r := by
            rw [PForm.run, PForm.run]
            have : ∀ ts, ∃ r, PForm.run (.seq (.alt (.seq (.tok Tag.TK_UNDERSCORE)
                (.seq (.tok Tag.SG_KIND_PARAM) .eps)) .eps) .eps) ts = some r := by
              intro ts
              rw [PForm.run, PForm.run]
              split
              · exact ⟨_, rfl⟩
              · exact ⟨_, rfl⟩
            split
            · exact this _
            · exact this _
          rw [hr] at ha
          obtain ⟨_, q', e1, e2, e3, e4⟩ := ha
          obtain ⟨pre, hpre, hin⟩ := run_toksIn (q := inert) _ (by decide) _ _ hr
          rw [Strm.goto_goto] at e1 e4
          have e3 : q' ≤ s.hi := e3
          have e2 : q ≤ q' := e2
          have hlt : q < s.hi := hlt
          have hl2 : (restOf (s.goto q')).length = s.hi - q' :=
            restOf_length (GoodStmt_goto hs (q := q') (by omega) e3)
          have hl1 : (restOf (s.goto (q + 1))).length = s.hi - (q + 1) :=
            restOf_length (GoodStmt_goto hs (q := q + 1) (by omega) (by omega))
          have hpre : restOf (s.goto (q + 1)) = pre ++ r := hpre
          have hpl := congrArg List.length hpre
          rw [List.length_append, ← e4, hl1, hl2] at hpl
          have h4 : restOf (s.goto q) = a :: restOf (s.goto (q + 1)) := h4
          refine ⟨q', e1, by omega, e3, (a :: pre).map (·.token), ?_, by simp; omega, ?_⟩
          · have a1 : tokSlice (tagsOf s) q s.hi = (restOf (s.goto q)).map (·.token) := (restOf_map (s.goto q)).symm
            have a2 : tokSlice (tagsOf s) q' s.hi = (restOf (s.goto q')).map (·.token) := (restOf_map (s.goto q')).symm
            rw [a1, a2, h4, hpre, e4]
            simp
          · intro t hm
            obtain ⟨b, hb, rfl⟩ := List.mem_map.mp hm
            rcases List.mem_cons.mp hb with rfl | hb
            · rw [ht]; decide
            · exact hin b hb
      | parens =>
        rw [hb] at hF hw
        injection hF with hF; subst hF
        rw [runBody] at hw
        exact fin _ (runParens_run hs hw) back
      | listName =>
        rw [hb] at hF hw
        injection hF with hF; subst hF
        rw [runBody] at hw
        exact fin _ (runListName_agrees hs (up_ok hw)) back
      | procDesignator q => rw [hb] at hF; cases hF
      | withExts a q => rw [hb] at hF; cases hF
    | seq tag ps =>
      rw [toFormG] at hF
      obtain ⟨Fs, e1, rfl⟩ := Option.map_eq_some_iff.mp hF
      rw [step] at h
      pbind h with w hw
      have ha := seqLoop_run hs ihq ps Fs s.pos (.node Tag.UNKNOWN none []) w (le_refl _) hs.pos_hi e1
        (by rw [Strm.goto_self]; exact hw)
      rw [Strm.goto_self] at ha
      rcases ha with ⟨h1, h2⟩ | ⟨h1, h2⟩
      · rw [h1, if_neg (by simp)] at h
        injection h with h; subst h
        rw [h2]
        have hf : Frame s w.2.2 := (seqLoop_adv (m := false)
          (eval_adv (m := false) (fun h => by cases h) n) _ _ _ _ hw).frame
        exact ⟨rfl, by rw [hf.eq_goto, Strm.goto_goto, Strm.goto_self]⟩
      · rw [h1, if_pos rfl] at h
        pbind h with m hm
        injection h with h; subst h
        exact h2
    | star p =>
      rw [toFormG] at hF
      obtain ⟨F', e1, rfl⟩ := Option.map_eq_some_iff.mp hF
      rw [step] at h
      pbind h with w hw
      pbind h with m hm
      injection h with h; subst h
      have := starLoop_run hs (fun q o h1 h2 h => ihq p F' q o h1 h2 e1 h) (restOf s).length n s.pos
        (.node Tag.HOIST none []) w (by rw [Strm.goto_self]) (le_refl _) hs.pos_hi
        (by rw [Strm.goto_self]; exact hw)
      rw [Strm.goto_self] at this
      exact this
    | tagIf tag p =>
      rw [toFormG] at hF
      rw [step] at h
      pbind h with o1 h1
      have ha := ih k p F s o1 hF hs h1
      split at h
      · pbind h with m hm
        injection h with h; subst h
        exact ha
      · injection h with h; subst h
        exact ha
    | tok t =>
      rw [toFormG] at hF
      by_cases ht : t = Tag.BAD
      · rw [if_pos ht] at hF; cases hF
      · rw [if_neg ht] at hF
        injection hF with hF; subst hF
        rw [step] at h
        exact (runTok_agrees hs ht (up_ok h)).1

theorem eval_run (x : Exts) (n k : Nat) (p : P) (F : PForm) (s : Strm) (o : Out) (h : toForm k p = some F)
    (hs : GoodStmt s) (ho : eval R.body x n p s = .ok o) : Agrees (F.run (restOf s)) s o.ok o.s :=
  eval_runG R.body (fun _ _ _ => body_expr) x n k p F s o h hs ho

end SP
end FLPR
