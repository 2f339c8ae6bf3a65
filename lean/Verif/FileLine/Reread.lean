import Verif.FileLine.FreeProps
/-!
# Reading a line again after its right-hand part has been changed
-/

namespace FLPR
open Spec

theorem quoteState_append (ctx : Option Char) (a b : Str) :
    quoteState ctx (a ++ b) = quoteState (quoteState ctx a) b := List.foldl_append ..

/-- A context that the automaton can be in. -/
def Spec.RealCtx (ctx : Option Char) : Prop := ctx = none ∨ ctx = some '\'' ∨ ctx = some '"'

theorem realCtx_step {ctx : Option Char} (c : Char) (h : RealCtx ctx) : RealCtx (quoteStep ctx c) := by
  unfold RealCtx quoteStep at *
  rcases h with rfl | rfl | rfl <;> dsimp only <;> split <;> simp_all

theorem realCtx_state {ctx : Option Char} (s : Str) (h : RealCtx ctx) : RealCtx (quoteState ctx s) := by
  unfold quoteState
  induction s generalizing ctx with
  | nil => exact h
  | cons c s ih => exact ih (realCtx_step c h)

theorem realCtx_ctxOf {d : Char} (h : validDelim d = true) : RealCtx (ctxOf d) := by
  unfold RealCtx
  rcases (validDelim_iff d).mp h with rfl | rfl | rfl <;> decide

/-- Blanks do not change the context. -/
theorem quoteState_blank {ctx : Option Char} {s : Str} (h : RealCtx ctx) (hs : ∀ c ∈ s, isSpace c = true) :
    quoteState ctx s = ctx := by
  induction s with
  | nil => rfl
  | cons c s ih =>
    have hc := hs c (by simp)
    have h1 : quoteStep ctx c = ctx := by
      have n1 : c ≠ '\'' := by rintro rfl; revert hc; decide
      have n2 : c ≠ '"' := by rintro rfl; revert hc; decide
      unfold quoteStep
      rcases h with rfl | rfl | rfl <;> simp [n1, n2]
    show quoteState (quoteStep ctx c) s = ctx
    rw [h1]
    exact ih (fun x hx => hs x (by simp [hx]))

/-- The text at the right end of a line: nothing, or something that starts like a comment or a continuation mark. -/
def Spec.RightText (rt : Str) : Prop := rt = [] ∨ ∃ c r, rt = c :: r ∧ (c = '!' ∨ c = '&')

theorem labelLen_take (p : Char → Bool) (a b : Str) (k : Nat) (hb : ∀ c, b.head? = some c → p c = false) :
    ((a ++ b).take k).takeWhile p = (a.take k).takeWhile p := by
  induction a generalizing k with
  | nil =>
    cases k with
    | zero => simp
    | succ k =>
      cases b with
      | nil => simp
      | cons x b => simp [hb x rfl]
  | cons x a ih =>
    cases k with
    | zero => simp
    | succ k =>
      simp only [List.cons_append, List.take_succ_cons, List.takeWhile_cons]
      rw [ih]

theorem labelLen_append (a b : Str) (hb : ∀ c, b.head? = some c → isDigit c = false) :
    labelLen (a ++ b) = labelLen a := by
  unfold labelLen
  rw [labelLen_take _ _ _ _ hb]

theorem labelLen_le (a : Str) : labelLen a ≤ a.length := by
  unfold labelLen
  refine (List.takeWhile_prefix _).length_le.trans ?_
  simp
  omega

/-- Whether a line is an include line does not depend on what stands at its end, as long as that is neither a letter
nor a quote. -/
theorem startsInclude_append (m t : Str)
    (h1 : ∀ c, t.head? = some c → lowChar c ∉ "include".toList)
    (h2 : ∀ c, (t.dropWhile (· == ' ')).head? = some c → c ≠ '\'' ∧ c ≠ '"') :
    startsInclude (m ++ t) ↔ startsInclude m := by
  unfold startsInclude
  by_cases hm : 7 ≤ m.length
  · have e1 : (m ++ t).take 7 = m.take 7 := List.take_append_of_le_length hm
    have e2 : (m ++ t).drop 7 = m.drop 7 ++ t := List.drop_append_of_le_length hm
    rw [e1, e2]
    refine and_congr_right fun _ => ?_
    cases hd : (m.drop 7).dropWhile (· == ' ') with
    | nil =>
      have hall : ∀ c ∈ m.drop 7, (c == ' ') = true := List.dropWhile_eq_nil_iff.mp hd
      have e3 : (m.drop 7 ++ t).dropWhile (· == ' ') = t.dropWhile (· == ' ') := by
        rw [List.dropWhile_append_of_pos hall]
      rw [e3]
      constructor
      · rintro ⟨q, rest, e, hq⟩
        have := h2 q (by rw [e]; rfl)
        rcases hq with rfl | rfl
        · exact absurd rfl this.1
        · exact absurd rfl this.2
      · rintro ⟨q, rest, e, hq⟩
        cases e
    | cons x xs =>
      have e3 : (m.drop 7 ++ t).dropWhile (· == ' ') = x :: xs ++ t := by
        rw [List.dropWhile_append, hd]
        simp
      rw [e3]
      constructor
      · rintro ⟨q, rest, e, hq⟩
        simp at e
        exact ⟨q, xs, by rw [e.1], hq⟩
      · rintro ⟨q, rest, e, hq⟩
        simp at e
        exact ⟨q, xs ++ t, by rw [← e.1]; rfl, hq⟩
  · constructor
    · rintro ⟨e, _⟩
      exfalso
      cases t with
      | nil =>
        have := congrArg List.length e
        simp at this
        omega
      | cons x t =>
        have h3 := congrArg (fun l => l[m.length]?) e
        have h4 : (((m ++ x :: t).take 7).map lowChar)[m.length]? = some (lowChar x) := by
          rw [List.getElem?_map, List.getElem?_take_of_lt (by omega)]
          simp
        simp only [h4] at h3
        exact h1 x rfl (List.mem_of_getElem? h3.symm)
    · rintro ⟨e, _⟩
      have := congrArg List.length e
      simp at this
      omega

theorem dropWhile_append_ne {p : Char → Bool} {a b : Str} (h : a.dropWhile p ≠ []) :
    (a ++ b).dropWhile p = a.dropWhile p ++ b := by
  rw [List.dropWhile_append]
  cases hd : a.dropWhile p with
  | nil => exact absurd hd h
  | cons x xs => simp

theorem takeWhile_append_ne {p : Char → Bool} {a b : Str} (h : a.dropWhile p ≠ []) :
    (a ++ b).takeWhile p = a.takeWhile p := by
  induction a with
  | nil => simp at h
  | cons x a ih =>
    by_cases hp : p x = true
    · simp only [List.dropWhile_cons, hp, if_true] at h
      simp [hp, ih h]
    · simp [hp]

/-- Text and blanks behind it are determined by the whole, if the text does not end in a blank. -/
theorem trailing_unique {m m' r r' : Str} (h : m ++ r = m' ++ r')
    (hm : ∀ c, m.getLast? = some c → c ≠ ' ' ∧ c ≠ '\t') (hm' : ∀ c, m'.getLast? = some c → c ≠ ' ' ∧ c ≠ '\t')
    (hr : ∀ c ∈ r, c = ' ' ∨ c = '\t') (hr' : ∀ c ∈ r', c = ' ' ∨ c = '\t') : m = m' ∧ r = r' := by
  have key : ∀ {m m' r r' : Str}, m ++ r = m' ++ r' → (∀ c, m'.getLast? = some c → c ≠ ' ' ∧ c ≠ '\t') →
      (∀ c ∈ r, c = ' ' ∨ c = '\t') → m'.length ≤ m.length := by
    intro m m' r r' h hm' hr
    by_contra hlt
    have hl : ∃ c, m'.getLast? = some c := by
      cases h' : m'.getLast? with
      | none => rw [List.getLast?_eq_none_iff] at h'; rw [h'] at hlt; simp at hlt
      | some c => exact ⟨c, rfl⟩
    obtain ⟨c, hc⟩ := hl
    have h1 := hm' c hc
    rw [List.getLast?_eq_getElem?] at hc
    have h2 : (m' ++ r')[m'.length - 1]? = some c := by
      rw [List.getElem?_append_left (by omega)]; exact hc
    rw [← h, List.getElem?_append_right (by omega)] at h2
    rcases hr c (List.mem_of_getElem? h2) with e | e
    · exact h1.1 e
    · exact h1.2 e
  have h1 := key h hm' hr
  have h2 := key h.symm hm hr'
  exact List.append_inj h (by omega)

theorem isSpace_of_blankTab {c : Char} (h : c = ' ' ∨ c = '\t') : isSpace c = true := by
  rcases h with rfl | rfl <;> decide

theorem bits_unique {f f' : FileLine} {b : Bool} (hf : f.isFortran = true) (hg : f'.isFortran = true)
    (h19 : f.bits.fixed_format = false) (k19 : f'.bits.fixed_format = false)
    (hlab : f'.bits.label = f.bits.label) (hcont : f'.bits.continuation = f.bits.continuation)
    (hcd : f'.bits.continued = b) : f'.bits = { f.bits with continued := b } := by
  simp only [FileLine.isFortran, FileLine.isTrivial, Bool.and_eq_true, Bool.not_eq_true',
    Bool.or_eq_false_iff] at hf hg
  obtain ⟨⟨⟨⟨⟨a1, a2⟩, a3⟩, a4⟩, a5⟩, a6⟩ := hf
  obtain ⟨⟨⟨⟨⟨b1, b2⟩, b3⟩, b4⟩, b5⟩, b6⟩ := hg
  generalize f'.bits = B at *
  generalize f.bits = A at *
  obtain ⟨q1, q2, q3, q4, q5, q6, q7, q8, q9, q10⟩ := B
  obtain ⟨p1, p2, p3, p4, p5, p6, p7, p8, p9, p10⟩ := A
  simp only at a1 a2 a3 a4 a5 a6 b1 b2 b3 b4 b5 b6 h19 k19 hlab hcont hcd
  simp only [a1, a2, a3, a4, a5, a6, b1, b2, b3, b4, b5, b6, h19, k19, hlab, hcont, hcd]

set_option maxHeartbeats 400000 in
/-- **Reading again**: take a free-format Fortran line outside a character context; give it other blanks and another
text at the right end.  The printed line is read as exactly that line. -/
theorem reread_free (ln : Int) (raw : Str) (pd : Char) (pc inLit : Bool) (f : FileLine) (lit : Bool)
    (hd : validDelim pd = true) (h : analyzeFree ln raw pd pc inLit = .ok (f, lit)) (hf : f.isFortran = true)
    (hod : f.open_delim = NUL) (rs rt : Str) (hrs : ∀ c ∈ rs, c = ' ' ∨ c = '\t') (hrt : RightText rt)
    (hm : f.main_txt ≠ [] ∨ f.bits.label = false ∨ rs = []) (ha : AsciiStr raw) (hat : AsciiStr rt)
    (g : FileLine) (hg : g = { f with right_space := rs, right_txt := rt,
                                      bits := { f.bits with continued := decide (rt.head? = some '&') } }) :
    analyzeFree ln g.print pd pc inLit = .ok (g, lit) := by
  have hk : lineCat inLit raw = .fortran := (C02_free_category _ _ _ _ _ _ _ hd h .fortran).mp hf
  have hprint := C01_free_roundtrip _ _ _ _ _ _ _ h
  have hnonempty := C02_free_main_nonempty_partial _ _ _ _ _ _ _ hd h hk
  have hlit : lit = false ∧ inLit = false := by
    rcases analyzeFree_cases h with ⟨h1, rfl, _⟩ | ⟨h1, h2, rfl, _⟩ | ⟨c0, rest, h1, hb, h⟩
    · revert hf; simp [mkLeft, FileLine.isFortran, FileLine.isTrivial]
    · revert hf; simp [mkLeft, FileLine.isFortran, FileLine.isTrivial]
    · rcases h with ⟨_, rfl, e⟩ | ⟨_, _, rfl, e⟩ | ⟨_, _, h⟩
      · exact ⟨e, h1⟩
      · exact ⟨e, h1⟩
      · rcases h with ⟨_, _, rfl, _⟩ | ⟨_, _, _, rfl, e⟩ | ⟨_, _, _, rfl, e⟩ | ⟨_, e, h⟩
        · revert hf; simp [mkLeft, FileLine.isFortran, FileLine.isTrivial]
        · exact ⟨e, h1⟩
        · exact ⟨e, h1⟩
        · exact ⟨e, h1⟩
  obtain ⟨rfl, rfl⟩ := hlit
  obtain ⟨c0, rest, hb, hbang, hbody⟩ := fortran_body h hk
  obtain ⟨h1, h2, h3, h4, h5, h6, h7, h8, h9, h10, h11, h12, h13, h14, h15, h16, h17, h18, h19⟩ :=
    analyzeFreeBody_spec hb hd hbody
  -- the part in front
  generalize hL : f.left_txt ++ f.left_space = L
  generalize hS : f.right_space ++ f.right_txt = S
  have hraw : raw = (L ++ f.main_txt) ++ S := by
    rw [← hprint, ← hL, ← hS]
    unfold FileLine.print
    rw [h19]
    simp [List.append_assoc]
  have hgf : g.isFortran = true := by
    rw [hg]
    exact hf
  have hgprint : g.print = (L ++ f.main_txt) ++ (rs ++ rt) := by
    unfold FileLine.print
    have : g.bits.fixed_format = false := by rw [hg]; exact h19
    rw [this, hg, ← hL]
    simp [List.append_assoc]
  -- characters at the start of the right parts
  have hSblank : ∀ c ∈ f.right_space, c = ' ' ∨ c = '\t' := h8
  have hrtOld : RightText f.right_txt := by
    cases hr : f.right_txt with
    | nil => exact Or.inl rfl
    | cons x xs =>
      right
      refine ⟨x, xs, rfl, ?_⟩
      have hne : f.right_txt ≠ [] := by rw [hr]; simp
      obtain ⟨hbr, _⟩ := h13 hne
      have hx : (stmtText pc raw)[(f.main_txt ++ f.right_space).length]? = some x := by
        rw [← h1, hr, List.getElem?_append_right (by simp)]
        simp
      rcases hbr with ⟨_, e | e⟩ | ⟨_, e, _⟩
      · rw [hx] at e; exact Or.inl (Option.some.inj e)
      · rw [hx] at e; exact Or.inr (Option.some.inj e)
      · rw [hx] at e; exact Or.inr (Option.some.inj e)
  have hheads : ∀ (b t : Str), (∀ c ∈ b, c = ' ' ∨ c = '\t') → RightText t → ∀ c, (b ++ t).head? = some c →
      c = ' ' ∨ c = '\t' ∨ c = '!' ∨ c = '&' := by
    intro b t hb ht c hc
    cases b with
    | cons x b =>
      simp at hc; subst hc
      rcases hb x (by simp) with e | e <;> simp [e]
    | nil =>
      rcases ht with rfl | ⟨y, r, rfl, hy⟩
      · simp at hc
      · simp at hc; subst hc
        rcases hy with e | e <;> simp [e]
  have hdig : ∀ (b t : Str), (∀ c ∈ b, c = ' ' ∨ c = '\t') → RightText t → ∀ c, (b ++ t).head? = some c →
      isDigit c = false := by
    intro b t hb ht c hc
    rcases hheads b t hb ht c hc with rfl | rfl | rfl | rfl <;> decide
  have hinc1 : ∀ (b t : Str), (∀ c ∈ b, c = ' ' ∨ c = '\t') → RightText t → ∀ c, (b ++ t).head? = some c →
      lowChar c ∉ "include".toList := by
    intro b t hb ht c hc
    rcases hheads b t hb ht c hc with rfl | rfl | rfl | rfl <;> decide
  have hinc2 : ∀ (b t : Str), (∀ c ∈ b, c = ' ' ∨ c = '\t') → RightText t →
      ∀ c, ((b ++ t).dropWhile (· == ' ')).head? = some c → c ≠ '\'' ∧ c ≠ '"' := by
    intro b t hb ht c hc
    induction b with
    | cons x b ih =>
      rw [List.cons_append, List.dropWhile_cons] at hc
      split at hc
      · exact ih (fun c hc => hb c (by simp [hc])) hc
      · simp at hc; subst hc
        rcases hb x (by simp) with e | e <;> simp [e]
    | nil =>
      rcases ht with rfl | ⟨y, r, rfl, hy⟩
      · simp at hc
      · rw [List.nil_append, List.dropWhile_cons] at hc
        split at hc
        · rename_i hsp
          simp at hsp; subst hsp
          simp at hy
        · simp at hc; subst hc
          rcases hy with e | e <;> simp [e]
  -- the body
  have hPne : body (L ++ f.main_txt) ≠ [] := by
    intro hcon
    have hall : ∀ c ∈ L ++ f.main_txt, isBlankChar c = true := List.dropWhile_eq_nil_iff.mp hcon
    by_cases hl : f.bits.label = true
    · have e := h4 hl
      have hdg : isDigit c0 = true := (h2.mp hl).2
      have : c0 ∈ f.left_txt := by
        rw [e]
        have h6 : raw = raw.take (indent raw) ++ (c0 :: rest) := by
          rw [← hb, ← drop_indent, List.take_append_drop]
        have hpos : 0 < labelLen (body raw) := by rw [hb]; simp [labelLen, hdg]
        have hlen : (raw.take (indent raw)).length = indent raw := by
          rw [take_indent]; rfl
        generalize hA : raw.take (indent raw) = A at *
        rw [h6, List.take_append]
        have hp : ∃ k, indent raw + labelLen (body raw) - A.length = k + 1 :=
          ⟨indent raw + labelLen (body raw) - A.length - 1, by omega⟩
        obtain ⟨k, hk⟩ := hp
        rw [← h6, hk]
        simp
      have hbl := hall c0 (by rw [← hL]; simp [this])
      have : isBlankChar c0 = false := by
        have hh := List.head?_dropWhile_not isBlankChar raw
        have hb' : raw.dropWhile isBlankChar = c0 :: rest := hb
        rw [hb'] at hh
        simpa using hh
      rw [this] at hbl; cases hbl
    · by_cases hc : f.bits.continuation = true
      · have hamp : c0 = '&' := h3.mp hc
        have : '&' ∈ f.left_txt := by
          rw [(h5 hc).1]
          have h6 : raw = raw.take (indent raw) ++ (c0 :: rest) := by
            rw [← hb, ← drop_indent, List.take_append_drop]
          have hlen : (raw.take (indent raw)).length = indent raw := by
            rw [take_indent]; rfl
          generalize hA : raw.take (indent raw) = A at *
          rw [h6, List.take_append, ← h6, hlen]
          simp [hamp]
        have hbl := hall '&' (by rw [← hL]; simp [this])
        revert hbl; decide
      · have hmne : f.main_txt ≠ [] := fun e => by
          rcases hnonempty e with h | h
          · exact hl h
          · exact hc h
        cases hmm : f.main_txt with
        | nil => exact hmne hmm
        | cons x xs =>
          have hx := h11 (by simpa using hc) x (by rw [hmm]; rfl)
          have hbl := hall x (by rw [hmm]; simp)
          rw [hx] at hbl; cases hbl
  have hbR : body raw = body (L ++ f.main_txt) ++ S := by
    conv_lhs => rw [hraw]
    exact dropWhile_append_ne hPne
  have hbG : body g.print = body (L ++ f.main_txt) ++ (rs ++ rt) := by
    rw [hgprint]
    exact dropWhile_append_ne hPne
  have hiG : indent g.print = indent raw := by
    have e1 : g.print.takeWhile isBlankChar = (L ++ f.main_txt).takeWhile isBlankChar := by
      rw [hgprint]; exact takeWhile_append_ne hPne
    have e2 : raw.takeWhile isBlankChar = (L ++ f.main_txt).takeWhile isBlankChar := by
      conv_lhs => rw [hraw]
      exact takeWhile_append_ne hPne
    unfold indent
    rw [e1, e2]
  obtain ⟨p0, hp0⟩ : ∃ p0, body (L ++ f.main_txt) = c0 :: p0 := by
    cases hx : body (L ++ f.main_txt) with
    | nil => exact absurd hx hPne
    | cons x xs =>
      rw [hbR, hx] at hb
      simp at hb
      exact ⟨xs, by rw [hb.1]⟩
  have hSr : RightText f.right_txt := hrtOld
  have hdigS : ∀ c, S.head? = some c → isDigit c = false := by
    rw [← hS]; exact hdig _ _ hSblank hSr
  have hdigG := hdig rs rt hrs hrt
  have hll : labelLen (body g.print) = labelLen (body raw) := by
    rw [hbG, hbR, labelLen_append _ _ hdigG, labelLen_append _ _ hdigS]
  -- category of the new line
  have hkG : lineCat false g.print = .fortran := by
    unfold lineCat at hk ⊢
    simp only [Bool.false_eq_true, if_false] at hk ⊢
    have hbne : body raw ≠ [] := by rw [hb]; simp
    rw [if_neg hbne] at hk
    have hgne : body g.print ≠ [] := by rw [hbG, hp0]; simp
    rw [if_neg hgne]
    have hPne' : L ++ f.main_txt ≠ [] := by
      intro e; rw [e] at hPne; exact hPne rfl
    have hhd : g.print.head? = raw.head? := by
      rw [hgprint]
      conv_rhs => rw [hraw]
      cases hx : L ++ f.main_txt with
      | nil => exact absurd hx hPne'
      | cons x xs => rfl
    rw [hhd]
    split at hk
    · cases hk
    · rename_i hh
      rw [if_neg hh]
      have hi1 : startsInclude (body g.print) ↔ startsInclude (body raw) := by
        rw [hbG, hbR, startsInclude_append _ _ (hinc1 rs rt hrs hrt) (hinc2 rs rt hrs hrt)]
        rw [startsInclude_append _ S (by rw [← hS]; exact hinc1 _ _ hSblank hSr)
          (by rw [← hS]; exact hinc2 _ _ hSblank hSr)]
      split at hk
      · cases hk
      · rename_i hi
        rw [if_neg (fun hx => hi (hi1.mp hx))]
        rw [if_neg]
        rw [hbG, hp0]
        simpa using hbang
  -- statement text of the new line
  have hdecomp : stmtText pc raw = f.main_txt ++ S := by rw [← h1, ← hS, List.append_assoc]
  have hst : stmtText pc g.print = f.main_txt ++ (rs ++ rt) := by
    unfold stmtText at hdecomp ⊢
    rw [hb] at hdecomp
    rw [hbG, hp0, List.cons_append]
    dsimp only at hdecomp ⊢
    by_cases hlab : pc = false ∧ isDigit c0 = true
    · rw [if_pos hlab] at hdecomp ⊢
      have hl : f.bits.label = true := h2.mpr hlab
      rw [← hb] at hdecomp
      rw [← List.cons_append, ← hp0, ← hbG, hll, hbG]
      have hle : labelLen (body raw) ≤ (body (L ++ f.main_txt)).length := by
        rw [hbR, labelLen_append _ _ hdigS]; exact labelLen_le _
      rw [List.drop_append_of_le_length hle]
      have hX : (body (L ++ f.main_txt)).drop (labelLen (body raw)) = f.left_space ++ f.main_txt := by
        have e1 : f.left_txt ++ (f.left_space ++ f.main_txt ++ S) = raw := by
          conv_rhs => rw [hraw]
          rw [← hL]; simp [List.append_assoc]
        have e2 : raw.drop (indent raw + labelLen (body raw)) = f.left_space ++ f.main_txt ++ S := by
          have e3 : raw.take (indent raw + labelLen (body raw)) ++ (f.left_space ++ f.main_txt ++ S) =
              raw.take (indent raw + labelLen (body raw)) ++ raw.drop (indent raw + labelLen (body raw)) := by
            rw [List.take_append_drop, ← h4 hl]; exact e1
          exact (List.append_cancel_left e3).symm
        rw [← List.drop_drop, drop_indent] at e2
        conv at e2 => lhs; arg 2; rw [hbR]
        rw [List.drop_append_of_le_length hle] at e2
        exact List.append_cancel_right e2
      rw [hX, List.append_assoc, List.dropWhile_append_of_pos h7]
      rw [show (body raw).drop (labelLen (body raw)) = f.left_space ++ f.main_txt ++ S by
        conv_lhs => arg 2; rw [hbR]
        rw [List.drop_append_of_le_length hle, hX]] at hdecomp
      rw [List.append_assoc, List.dropWhile_append_of_pos h7] at hdecomp
      by_cases hmt : f.main_txt = []
      · have hrs0 : rs = [] := by
          rcases hm with h | h | h
          · exact absurd hmt h
          · rw [h] at hl; cases hl
          · exact h
        rw [hmt, hrs0]
        rcases hrt with rfl | ⟨y, r, rfl, hy⟩
        · rfl
        · have : isSpace y = false := by rcases hy with rfl | rfl <;> decide
          simp [this]
      · cases hmm : f.main_txt with
        | nil => exact absurd hmm hmt
        | cons x xs =>
          rw [hmm, List.cons_append, List.dropWhile_cons] at hdecomp
          rw [List.cons_append, List.dropWhile_cons]
          split at hdecomp
          · have hlen := congrArg List.length hdecomp
            have := (List.dropWhile_suffix (l := xs ++ S) isSpace).length_le
            simp only [List.length_cons, List.length_append] at hlen this
            omega
          · rename_i hsp
            rw [if_neg hsp]
    · rw [if_neg hlab] at hdecomp ⊢
      rw [hbR, hp0] at hb
      simp only [List.cons_append, List.cons.injEq, true_and] at hb
      by_cases hamp : c0 = '&'
      · rw [if_pos hamp] at hdecomp ⊢
        rw [← hb] at hdecomp
        rw [List.append_cancel_right hdecomp]
      · rw [if_neg hamp] at hdecomp ⊢
        rw [← hb, ← List.cons_append] at hdecomp
        rw [← List.cons_append, List.append_cancel_right hdecomp]
  -- contexts
  have hq0 : RealCtx (ctxOf pd) := realCtx_ctxOf hd
  have hqm : quoteState (ctxOf pd) f.main_txt = none := by
    rw [hod, ctxOf_NUL, quoteState_append,
      quoteState_blank (realCtx_state _ hq0) (fun c hc => isSpace_of_blankTab (h8 c hc))] at h14
    exact h14.symm
  have hqr : quoteState (ctxOf pd) (f.main_txt ++ rs) = none := by
    rw [quoteState_append, quoteState_blank (realCtx_state _ hq0) (fun c hc => isSpace_of_blankTab (hrs c hc)), hqm]
  -- break positions
  have hnobreak : ∀ j < (f.main_txt ++ rs).length, ¬ IsBreak (ctxOf pd) (f.main_txt ++ (rs ++ rt)) j := by
    intro j hj hbr
    have hgetrs : f.main_txt.length ≤ j → ∃ c, (c = ' ' ∨ c = '\t') ∧
        (f.main_txt ++ (rs ++ rt))[j]? = some c := by
      intro hjm
      have hlt : j - f.main_txt.length < rs.length := by simp at hj; omega
      refine ⟨rs[j - f.main_txt.length], hrs _ (List.getElem_mem _), ?_⟩
      rw [List.getElem?_append_right hjm, List.getElem?_append_left hlt, List.getElem?_eq_getElem hlt]
    by_cases hjm : f.main_txt.length ≤ j
    · obtain ⟨c, hc, hget⟩ := hgetrs hjm
      rcases hbr with ⟨_, e | e⟩ | ⟨_, e, _⟩ <;> rw [hget] at e <;> have := Option.some.inj e <;> subst this <;>
        simp at hc
    · have hjm' : j < f.main_txt.length := by omega
      have htk : ∀ X : Str, (f.main_txt ++ X).take j = f.main_txt.take j := fun X =>
        List.take_append_of_le_length (by omega)
      have hgt : ∀ X : Str, (f.main_txt ++ X)[j]? = f.main_txt[j]? := fun X =>
        List.getElem?_append_left hjm'
      have hold : ¬ IsBreak (ctxOf pd) (f.main_txt ++ S) j := by
        rw [← hdecomp]
        by_cases hr : f.right_txt = []
        · exact (h12 hr).1 j
        · exact (h13 hr).2 j (by simp; omega)
      unfold IsBreak at hbr hold
      rw [htk, hgt] at hbr hold
      rcases hbr with hx | ⟨hx1, hx2, hx3⟩
      · exact hold (Or.inl hx)
      · -- everything behind the mark is blank, so the context stays open
        have hsp : ∀ c ∈ f.main_txt.drop (j + 1), isSpace c = true := by
          intro c hc
          refine hx3 c ?_
          rw [List.drop_append_of_le_length (by omega)]
          simp [hc]
        have e : f.main_txt = f.main_txt.take j ++ ('&' :: f.main_txt.drop (j + 1)) := by
          conv_lhs => rw [← List.take_append_drop j f.main_txt]
          congr 1
          rw [List.drop_eq_getElem_cons hjm']
          rw [List.getElem?_eq_getElem hjm'] at hx2
          rw [Option.some.inj hx2]
        have hq := hqm
        rw [e, quoteState_append] at hq
        have hreal := realCtx_state (f.main_txt.take j) hq0
        have hstep : quoteStep (quoteState (ctxOf pd) (f.main_txt.take j)) '&' =
            quoteState (ctxOf pd) (f.main_txt.take j) := by
          rcases hreal with h | h | h <;> rw [h] <;> decide
        rw [show quoteState (quoteState (ctxOf pd) (f.main_txt.take j)) ('&' :: f.main_txt.drop (j + 1)) =
            quoteState (quoteStep (quoteState (ctxOf pd) (f.main_txt.take j)) '&') (f.main_txt.drop (j + 1))
            from rfl, hstep, quoteState_blank hreal hsp] at hq
        exact hx1 hq
  have hbreak : rt ≠ [] → IsBreak (ctxOf pd) (f.main_txt ++ (rs ++ rt)) (f.main_txt ++ rs).length := by
    intro hne
    rcases hrt with h | ⟨y, r, rfl, hy⟩
    · exact absurd h hne
    · left
      have e1 : (f.main_txt ++ (rs ++ y :: r)).take (f.main_txt ++ rs).length = f.main_txt ++ rs := by
        rw [← List.append_assoc, List.take_left']; rfl
      have e2 : (f.main_txt ++ (rs ++ y :: r))[(f.main_txt ++ rs).length]? = some y := by
        rw [← List.append_assoc, List.getElem?_append_right (by simp)]; simp
      rw [e1, e2]
      refine ⟨hqr, ?_⟩
      rcases hy with rfl | rfl <;> simp
  -- the outcome
  have hasc : AsciiStr g.print := by
    intro c hc
    rw [hgprint] at hc
    rcases List.mem_append.mp hc with hc | hc
    · exact ha c (hraw ▸ List.mem_append_left _ hc)
    · rcases List.mem_append.mp hc with hc | hc
      · rcases hrs c hc with rfl | rfl <;> decide
      · exact hat c hc
  rcases C03_free_outcome ln g.print pd pc false hd hasc with ⟨⟨f', lit'⟩, hok⟩ | ⟨_, _, hnb, hq⟩
  swap
  · exfalso
    rw [hst] at hnb hq
    by_cases hne : rt = []
    · rw [hne, List.append_nil] at hq
      exact hq hqr
    · exact hnb _ (hbreak hne)
  obtain ⟨c1, rest1, hb1, hbang1, hbody1⟩ := fortran_body hok hkG
  obtain ⟨k1, k2, k3, k4, k5, k6, k7, k8, k9, k10, k11, k12, k13, k14, k15, k16, k17, k18, k19⟩ :=
    analyzeFreeBody_spec hb1 hd hbody1
  have hlit' : lit' = false := by
    cases lit' with
    | false => rfl
    | true =>
      have := (C02_free_literal_state _ _ _ _ _ _ _ hok).mp rfl
      rw [if_neg (by simp), hkG] at this
      cases this
  have hc1 : c1 = c0 := by
    rw [hbG, hp0] at hb1
    simp at hb1
    exact hb1.1.symm
  subst hc1
  rw [hst] at k1 k12 k13
  -- the break
  have hsplit : f'.main_txt ++ f'.right_space = f.main_txt ++ rs ∧ f'.right_txt = rt := by
    rw [← List.append_assoc] at k1
    by_cases hne : rt = []
    · have hr' : f'.right_txt = [] := by
        by_contra hcon
        obtain ⟨hbr, _⟩ := k13 hcon
        have hlen := congrArg List.length k1
        have : 0 < f'.right_txt.length := List.length_pos_iff.mpr hcon
        rw [hne] at hlen
        simp only [List.length_append, List.length_nil] at hlen
        exact hnobreak _ (by simp only [List.length_append]; omega) hbr
      rw [hr', hne, List.append_nil, List.append_nil] at k1
      exact ⟨k1, by rw [hr', hne]⟩
    · have hr' : f'.right_txt ≠ [] := by
        intro hcon
        exact (k12 hcon).1 _ (hbreak hne)
      obtain ⟨hbr, hnb⟩ := k13 hr'
      have hl1 : ¬ (f'.main_txt ++ f'.right_space).length < (f.main_txt ++ rs).length := fun hlt =>
        hnobreak _ hlt hbr
      have hl2 : ¬ (f.main_txt ++ rs).length < (f'.main_txt ++ f'.right_space).length := fun hlt =>
        hnb _ hlt (hbreak hne)
      exact List.append_inj k1 (by omega)
  obtain ⟨hs1, hs2⟩ := hsplit
  have hod' : f'.open_delim = NUL := by
    rw [hs1, hqr] at k14
    unfold ctxOf at k14
    split at k14
    · assumption
    · cases k14
  obtain ⟨hmain, hrsp⟩ := trailing_unique hs1 (k9 hod') (h9 hod) k8 hrs
  have hlab : f'.bits.label = f.bits.label := by
    rw [Bool.eq_iff_iff, k2, h2]
  have hcont : f'.bits.continuation = f.bits.continuation := by
    rw [Bool.eq_iff_iff, k3, h3]
  have hcd : f'.bits.continued = decide (rt.head? = some '&') := by
    rw [Bool.eq_iff_iff, k16, hs2]; simp
  -- left part
  have hLg : f'.left_txt ++ f'.left_space = L := by
    have hp := C01_free_roundtrip _ _ _ _ _ _ _ hok
    rw [hgprint] at hp
    unfold FileLine.print at hp
    rw [k19] at hp
    simp only [Bool.and_false, Bool.false_eq_true, if_false] at hp
    rw [hmain, hrsp, hs2] at hp
    rw [List.append_assoc _ rs rt, List.append_assoc] at hp
    rw [List.append_assoc L] at hp
    exact List.append_cancel_right hp
  have hll2 : f'.left_txt.length = f.left_txt.length := by
    have hfl : f.left_txt.length ≤ L.length := by rw [← hL]; simp
    have hfl' : f'.left_txt.length ≤ L.length := by rw [← hLg]; simp
    have hraw' : raw.length = L.length + f.main_txt.length + S.length := by
      conv_lhs => rw [hraw]
      simp; omega
    have hgp' : g.print.length = L.length + f.main_txt.length + (rs ++ rt).length := by
      rw [hgprint]; simp; omega
    by_cases hl : f.bits.label = true
    · have e1 := congrArg List.length (h4 hl)
      have e2 := congrArg List.length (k4 (by rw [hlab]; exact hl))
      rw [hll, hiG] at e2
      simp only [List.length_take] at e1 e2
      have hbl := congrArg List.length hbR
      have hble := labelLen_le (body (L ++ f.main_txt))
      have hpl : (L ++ f.main_txt).length = indent (L ++ f.main_txt) + (body (L ++ f.main_txt)).length := by
        rw [← drop_indent, ← Nat.add_comm, List.length_drop]
        have : indent (L ++ f.main_txt) ≤ (L ++ f.main_txt).length := (List.takeWhile_prefix _).length_le
        omega
      have hpi : indent (L ++ f.main_txt) = indent raw := by
        unfold indent
        conv_rhs => rw [hraw]
        rw [takeWhile_append_ne hPne]
      have hlb : labelLen (body raw) = labelLen (body (L ++ f.main_txt)) := by
        rw [hbR, labelLen_append _ _ hdigS]
      simp only [List.length_append] at hpl
      omega
    · by_cases hc : f.bits.continuation = true
      · have e1 := (h5 hc).2
        have e2 := (k5 (by rw [hcont]; exact hc)).2
        rw [e1, List.append_nil] at hL
        rw [e2, List.append_nil] at hLg
        rw [hL, hLg]
      · rw [h6 (by simpa using hl) (by simpa using hc),
          k6 (by rw [hlab]; simpa using hl) (by rw [hcont]; simpa using hc)]
  obtain ⟨hlt, hls⟩ := List.append_inj (hLg.trans hL.symm) hll2
  rw [hok, hlit']
  congr 2
  -- all fields
  have hbits : f'.bits = { f.bits with continued := decide (rt.head? = some '&') } := by
    exact bits_unique hf k18 h19 k19 hlab hcont hcd
  rw [hg]
  obtain ⟨n', lt', ls', mt', rs', rt', od', bt'⟩ := f'
  simp only at hmain hrsp hs2 hod' hlt hls hbits k17
  subst hmain hrsp hs2 hod' hlt hls hbits k17
  simp [hod, h17]

end FLPR
