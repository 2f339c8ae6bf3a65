import Verif.LogicalFile.ConvertLemmas
/-!
# Reading a converted Fortran line in free format
-/

namespace FLPR
open Spec

/-- What follows the statement text `m` on a printed line: `cont` says that the line is continued. -/
def LineTail (m : Str) (od : Char) (cont : Bool) (rs u : Str) : Prop :=
  (od = NUL → (∀ c ∈ rs, Blk c) ∧ ∀ c, m.getLast? = some c → c ≠ ' ' ∧ c ≠ '\t') ∧
  (od ≠ NUL → rs = []) ∧
  (cont = true → ∃ t, u = '&' :: t ∧ (od ≠ NUL → ∀ c ∈ t, isSpace c = true)) ∧
  (cont = false → od = NUL ∧ (u = [] ∨ ∃ t, u = '!' :: t))

theorem trim_eq {m rs : Str} (hr : ∀ c ∈ rs, Blk c)
    (hm : ∀ c, m.getLast? = some c → c ≠ ' ' ∧ c ≠ '\t') : trimMain (m ++ rs) NUL = (m, rs) := by
  have hk : lastNotOfSucc [' ', '\t'] (m ++ rs) = m.length := by
    unfold lastNotOfSucc
    rw [List.reverse_append]
    have h1 : ∀ a b : Str, (∀ c ∈ a, Blk c) →
        (a ++ b).dropWhile (fun c => [' ', '\t'].contains c) =
          b.dropWhile (fun c => [' ', '\t'].contains c) := by
      intro a b ha
      induction a with
      | nil => rfl
      | cons x a ih =>
        rw [List.cons_append, List.dropWhile_cons, if_pos]
        · exact ih (fun c hc => ha c (by simp [hc]))
        · rcases ha x (by simp) with rfl | rfl <;> rfl
    rw [h1 _ _ (by intro c hc; exact hr c (by simpa using hc))]
    cases hrv : m.reverse with
    | nil => simp at hrv; subst hrv; rfl
    | cons x t =>
      have hl : m.getLast? = some x := by
        rw [← List.head?_reverse, hrv]; rfl
      have := hm x hl
      rw [List.dropWhile_cons, if_neg (by simp [this.1, this.2]), ← hrv]
      simp
  unfold trimMain
  rw [if_pos rfl]
  dsimp only
  rw [hk]
  cases rs with
  | nil => simp
  | cons x t => rw [if_pos (by simp)]; simp

/-- The first break of a printed text is behind the statement text. -/
theorem tail_break {m rs u : Str} {pd od : Char} {cont : Bool} (hd : validDelim pd = true)
    (hstate : ctxOf od = quoteState (ctxOf pd) m)
    (hno : ∀ k, quoteState (ctxOf pd) (m.take k) = none →
      m[k]? ≠ some '!' ∧ m[k]? ≠ some '&')
    (ht : LineTail m od cont rs u) :
    (∀ j, j < m.length + rs.length → ¬ IsBreak (ctxOf pd) (m ++ (rs ++ u)) j) ∧
    (u ≠ [] → IsBreak (ctxOf pd) (m ++ (rs ++ u)) (m.length + rs.length)) ∧
    quoteState (ctxOf pd) (m ++ rs) = ctxOf od := by
  obtain ⟨t1, t2, t3, t4⟩ := ht
  have hvalid := quoteState_valid m _ (ctx_valid hd)
  have hrsb : ∀ c ∈ rs, Blk c := by
    by_cases h : od = NUL
    · exact (t1 h).1
    · rw [t2 h]; simp
  have hsr : quoteState (ctxOf pd) (m ++ rs) = ctxOf od := by
    rw [quoteState_append, quoteState_blks _ hrsb _ hvalid, hstate]
  refine ⟨?_, ?_, hsr⟩
  · intro j hj hb
    by_cases hjm : j < m.length
    · rcases hb with ⟨b1, b2⟩ | ⟨b1, b2, b3⟩
      · rw [List.take_append_of_le_length (by omega)] at b1
        rw [List.getElem?_append_left hjm] at b2
        have := hno j b1
        rcases b2 with b2 | b2
        · exact this.1 b2
        · exact this.2 b2
      · rw [List.take_append_of_le_length (by omega)] at b1
        rw [List.getElem?_append_left hjm] at b2
        rw [List.drop_append_of_le_length (by omega)] at b3
        cases cont with
        | true =>
          obtain ⟨t, hu, _⟩ := t3 rfl
          have := b3 '&' (by simp [hu])
          exact absurd this (by decide)
        | false =>
          have hod' := (t4 rfl).1
          rw [hod'] at hstate
          -- the context stays open from `j` on
          have hsplit : m = m.take j ++ '&' :: m.drop (j + 1) := by
            obtain ⟨h1, h2⟩ := List.getElem?_eq_some_iff.mp b2
            rw [← h2, ← List.drop_eq_getElem_cons h1, List.take_append_drop]
          rw [hsplit, quoteState_append] at hstate
          cases hq : quoteState (ctxOf pd) (m.take j) with
          | none => exact b1 hq
          | some q =>
            have hqv := quoteState_valid (m.take j) _ (ctx_valid hd) q hq
            rw [hq] at hstate
            have hstep : ∀ (s : Str), (∀ c ∈ s, isSpace c = true ∨ c = '&') →
                quoteState (some q) s = some q := by
              intro s
              induction s with
              | nil => intro _; rfl
              | cons c s ih =>
                intro hs
                show quoteState (quoteStep (some q) c) s = some q
                have : quoteStep (some q) c = some q := by
                  unfold quoteStep
                  dsimp only
                  rw [if_neg]
                  rintro rfl
                  rcases hs c (by simp) with h | h
                  · rcases hqv with rfl | rfl <;> revert h <;> decide
                  · subst h; rcases hqv with h | h <;> revert h <;> decide
                rw [this]
                exact ih (fun c hc => hs c (by simp [hc]))
            rw [hstep] at hstate
            · simp [ctxOf_NUL] at hstate
            · intro c hc
              rcases List.mem_cons.mp hc with rfl | hc
              · exact .inr rfl
              · exact .inl (b3 c (by simp [hc]))
    · -- in the blanks behind the text
      have hod' : od = NUL := by
        by_contra h
        rw [t2 h] at hj; simp at hj; omega
      have hg : (m ++ (rs ++ u))[j]? = rs[j - m.length]? := by
        rw [List.getElem?_append_right (by omega), List.getElem?_append_left (by omega)]
      have hx : ∃ x, rs[j - m.length]? = some x ∧ Blk x := by
        have hlt : j - m.length < rs.length := by omega
        exact ⟨_, List.getElem?_eq_getElem hlt, hrsb _ (List.getElem_mem hlt)⟩
      obtain ⟨x, hx, hxb⟩ := hx
      rw [hx] at hg
      have : (m ++ (rs ++ u))[j]? ≠ some '!' ∧ (m ++ (rs ++ u))[j]? ≠ some '&' := by
        rw [hg]
        rcases hxb with rfl | rfl <;> decide
      rcases hb with ⟨_, b2 | b2⟩ | ⟨_, b2, _⟩
      · exact this.1 b2
      · exact this.2 b2
      · exact this.2 b2
  · intro hu
    have htake : (m ++ (rs ++ u)).take (m.length + rs.length) = m ++ rs := by
      rw [← List.append_assoc, List.take_append_of_le_length (by simp)]
      rw [List.take_of_length_le (by simp)]
    have hget : (m ++ (rs ++ u))[m.length + rs.length]? = u[0]? := by
      rw [← List.append_assoc, List.getElem?_append_right (by simp)]
      simp
    have hdrop : (m ++ (rs ++ u)).drop (m.length + rs.length + 1) = u.drop 1 := by
      rw [← List.append_assoc, List.drop_append]
      simp
    unfold IsBreak
    rw [htake, hget, hdrop, hsr]
    cases cont with
    | true =>
      obtain ⟨t, rfl, h2⟩ := t3 rfl
      by_cases h : od = NUL
      · left; rw [h]; simp [ctxOf_NUL]
      · right
        rw [ctxOf_ne h]; simpa using h2 h
    | false =>
      obtain ⟨h1, h2 | ⟨t, rfl⟩⟩ := t4 rfl
      · exact absurd h2 hu
      · left; rw [h1]; simp [ctxOf_NUL]

theorem ctx_inj {a b : Char} (h : ctxOf a = ctxOf b) : a = b := by
  unfold ctxOf at h
  split at h <;> split at h <;> simp_all

/-- `find_trailing_free` on a printed line. -/
theorem tail_find {P m rs u : Str} {pd od : Char} {cont : Bool} (hd : validDelim pd = true)
    (hstate : ctxOf od = quoteState (ctxOf pd) m)
    (hno : ∀ k, quoteState (ctxOf pd) (m.take k) = none →
      m[k]? ≠ some '!' ∧ m[k]? ≠ some '&')
    (ht : LineTail m od cont rs u) (ha : AsciiStr (m ++ (rs ++ u))) :
    findTrailingFree (P ++ (m ++ (rs ++ u))) P.length pd =
      .ok (if u = [] then none else some (P.length + (m.length + rs.length)), od) := by
  obtain ⟨b1, b2, b3⟩ := tail_break hd hstate hno ht
  unfold findTrailingFree
  rw [if_pos hd, List.drop_left]
  have hbig : u = [] → ∀ j, ¬ IsBreak (ctxOf pd) (m ++ (rs ++ u)) j := by
    intro hu j
    by_cases hj : j < m.length + rs.length
    · exact b1 j hj
    · intro hb
      have hn : (m ++ (rs ++ u))[j]? = none := by
        rw [List.getElem?_eq_none]; simp [hu]; omega
      rcases hb with ⟨_, h | h⟩ | ⟨_, h, _⟩ <;> rw [hn] at h <;> simp at h
  rcases findTrailingFreeGo_ascii (i := P.length) hd ha with ⟨⟨tb, d⟩, hr⟩ | ⟨_, h2, h3⟩
  · cases tb with
    | none =>
      obtain ⟨n1, n2, n3⟩ := findTrailingFreeGo_none hd hr
      have hu : u = [] := by
        by_contra hu
        exact n2 _ (b2 hu)
      rw [hr, if_pos hu]
      subst hu
      rw [List.append_nil, b3] at n3
      have : od = NUL := ctx_inj (by rw [n3]; rfl)
      rw [n1, this]
    | some t =>
      obtain ⟨s1, s2, s3, s4, s5⟩ := findTrailingFreeGo_some hd hr
      have hu : u ≠ [] := fun hu => hbig hu _ s2
      have hge : m.length + rs.length ≤ t - P.length := by
        by_contra h
        exact b1 _ (by omega) s2
      have hle : t - P.length ≤ m.length + rs.length := by
        by_contra h
        exact s3 _ (by omega) (b2 hu)
      have heq : t - P.length = m.length + rs.length := by omega
      rw [hr, if_neg hu]
      have htake : (m ++ (rs ++ u)).take (m.length + rs.length) = m ++ rs := by
        rw [← List.append_assoc, List.take_append_of_le_length (by simp)]
        rw [List.take_of_length_le (by simp)]
      rw [heq, htake, b3] at s4
      rw [ctx_inj s4]
      congr 3; omega
  · exfalso
    by_cases hu : u = []
    · subst hu
      rw [List.append_nil, b3] at h3
      have hc : cont = false := by
        cases cont with
        | false => rfl
        | true => obtain ⟨t, h, _⟩ := ht.2.2.1 rfl; simp at h
      have := (ht.2.2.2 hc).1
      rw [this] at h3
      exact h3 rfl
    · exact h2 _ (b2 hu)

/-- A printed line read in free format, once its left end is known. -/
theorem free_body_full {ln : Int} {P m rs u lt : Str} {b : Bits} {pd od : Char} {pc cont : Bool}
    {ri r1 ib : Nat} {c : Char} (hd : validDelim pd = true)
    (hod : validDelim od = true) (hstate : ctxOf od = quoteState (ctxOf pd) m)
    (hno : ∀ k, quoteState (ctxOf pd) (m.take k) = none →
      m[k]? ≠ some '!' ∧ m[k]? ≠ some '&')
    (ht : LineTail m od cont rs u) (ha : AsciiStr (m ++ (rs ++ u)))
    (hl : freeLeft (P ++ (m ++ (rs ++ u))) pc ri c = .ok (lt, b, r1, ib))
    (hs : freeSkip (P ++ (m ++ (rs ++ u))) lt b r1 = .ok P.length) :
    analyzeFreeBody ln (P ++ (m ++ (rs ++ u))) pd pc ri c =
      .ok ⟨ln, lt, if P.length > ib then ((P ++ (m ++ (rs ++ u))).drop ib).take (P.length - ib) else [], m, rs, u, od,
        { b with continued := cont }⟩ := by
  have hbits : b.continued = false := (freeLeft_ok hl).2.2.2.2.2.2.2.2.2.2.2
  unfold analyzeFreeBody
  rw [hl]
  simp only [Res.ok_bind]
  rw [hs]
  simp only [Res.ok_bind]
  rw [tail_find hd hstate hno ht ha]
  simp only [Res.ok_bind]
  have htrim : ∀ rs', rs' = rs → trimMain (m ++ rs') od = (m, rs) := by
    rintro _ rfl
    by_cases h : od = NUL
    · rw [h, trim_eq (ht.1 h).1 (ht.1 h).2]
    · simp [trimMain, h, ht.2.1 h]
  by_cases hu : u = []
  · rw [if_pos hu]
    have hc : cont = false := by
      cases cont with
      | false => rfl
      | true => obtain ⟨t, h, _⟩ := ht.2.2.1 rfl; rw [hu] at h; simp at h
    subst hu
    simp only [substrFrom, List.length_append, Nat.le_add_right, if_true, List.drop_left,
      Res.ok_bind, List.append_nil]
    unfold mkFull
    rw [if_pos hod, htrim rs rfl]
    dsimp only
    rw [hc, ← hbits]
  · rw [if_neg hu]
    dsimp only
    have h1 : P.length + (m.length + rs.length) - P.length = m.length + rs.length := by omega
    have htake : (m ++ (rs ++ u)).take (m.length + rs.length) = m ++ rs := by
      rw [← List.append_assoc, List.take_append_of_le_length (by simp)]
      rw [List.take_of_length_le (by simp)]
    have hdrop : (P ++ (m ++ (rs ++ u))).drop (P.length + (m.length + rs.length)) = u := by
      rw [List.drop_append, ← List.append_assoc, List.drop_append]
      simp
    have hle : P.length + (m.length + rs.length) ≤ (P ++ (m ++ (rs ++ u))).length := by simp
    have hle0 : P.length ≤ (P ++ (m ++ (rs ++ u))).length := by simp
    simp only [substr, substrFrom, hle, hle0, if_true, List.drop_left, Res.ok_bind, h1, htake, hdrop]
    unfold mkFull
    rw [if_pos hod, htrim rs rfl]
    dsimp only
    cases cont with
    | true =>
      obtain ⟨t, rfl, _⟩ := ht.2.2.1 rfl
      simp
    | false =>
      obtain ⟨_, h2 | ⟨t, rfl⟩⟩ := ht.2.2.2 rfl
      · exact absurd h2 hu
      · simp [← hbits]

/-- The fields of a printed line read in free format, once its left end is known. -/
theorem free_body {ln : Int} {P m rs u lt : Str} {b : Bits} {pd od : Char} {pc cont : Bool}
    {ri r1 ib : Nat} {c : Char} (hd : validDelim pd = true)
    (hod : validDelim od = true) (hstate : ctxOf od = quoteState (ctxOf pd) m)
    (hno : ∀ k, quoteState (ctxOf pd) (m.take k) = none →
      m[k]? ≠ some '!' ∧ m[k]? ≠ some '&')
    (ht : LineTail m od cont rs u) (ha : AsciiStr (m ++ (rs ++ u)))
    (hl : freeLeft (P ++ (m ++ (rs ++ u))) pc ri c = .ok (lt, b, r1, ib))
    (hs : freeSkip (P ++ (m ++ (rs ++ u))) lt b r1 = .ok P.length) :
    ∃ g, analyzeFreeBody ln (P ++ (m ++ (rs ++ u))) pd pc ri c = .ok g ∧ g.main_txt = m ∧
      g.left_txt = lt ∧ g.open_delim = od ∧ g.bits = { b with continued := cont } :=
  ⟨_, free_body_full hd hod hstate hno ht ha hl hs, rfl, rfl, rfl, rfl⟩

theorem body_blanks {P M : Str} (hP : ∀ c ∈ P, isBlankChar c = true) {c : Char} {t : Str}
    (hM : M = c :: t) (hc : isBlankChar c = false) :
    body (P ++ M) = M ∧ indent (P ++ M) = P.length := by
  subst hM
  unfold body indent
  induction P with
  | nil => simp [hc]
  | cons x P ih =>
    have hx : isBlankChar x = true := hP x (by simp)
    have := ih (fun c hc => hP c (by simp [hc]))
    simp [hx, this.1, this.2]

/-- The part of `analyze_free` in front of the Fortran part. -/
theorem free_top {ln : Int} {raw : Str} {pd : Char} {pc : Bool} {c0 : Char} {rest : Str}
    {g : FileLine} (ha : AsciiStr raw) (hb : body raw = c0 :: rest) (h1 : c0 ≠ '!')
    (h2 : raw.head? ≠ some '#') (h3 : ¬ startsInclude (body raw))
    (hg : analyzeFreeBody ln raw pd pc (indent raw) (upChar c0) = .ok g) :
    analyzeFree ln raw pd pc false = .ok (g, false) := by
  unfold analyzeFree
  dsimp only
  cases hf : findFirstNotOf [' ', '\t', '\r'] raw with
  | none => rw [findFirstNotOf_none _ hf] at hb; simp at hb
  | some ri =>
    obtain ⟨e1, e2, e3, e4⟩ := findFirstNotOf_blank _ _ hf
    have hget : raw[ri]? = some c0 := by rw [← List.head?_drop, e2, hb]; rfl
    have hgetD : raw.getD ri NUL = c0 := by simp [List.getD_eq_getElem?_getD, hget]
    have hca : isAscii c0 = true := ha c0 (List.mem_of_getElem? hget)
    obtain ⟨inc, hinc⟩ := isIncludeLine_ascii (ri := ri) ha
    have hinc' := isIncludeLine_ok e4 hinc
    rw [e2] at hinc'
    have hfalse : inc = false := by
      cases inc with
      | false => rfl
      | true => exact absurd (hinc'.mp rfl) h3
    subst hfalse
    rw [if_neg (by decide)]
    dsimp only
    rw [hgetD]
    have hup : cToUpper c0 = .ok (upChar c0) := by simp [cToUpper, hca]
    rw [hup]
    simp only [Res.ok_bind]
    rw [if_neg, hinc]
    · simp only [Res.ok_bind, Bool.false_eq_true, if_false, upChar_bang, h1]
      rw [e1, hg]
      rfl
    · rintro ⟨hr, hc⟩
      rw [upChar_hash] at hc
      apply h2
      rw [hr] at hget
      rw [← hc, ← hget]
      cases raw <;> rfl

/-- `startsInclude` does not depend on what follows the statement text. -/
theorem include_tail {m s : Str} (h : startsInclude (m ++ s))
    (hs : s = [] ∨ ∃ w x t, s = w ++ x :: t ∧ (∀ c ∈ w, Blk c) ∧ (x = '!' ∨ x = '&') ∨
      ∃ w, s = w ∧ ∀ c ∈ w, Blk c) : startsInclude m := by
  obtain ⟨h1, q, r, h2, h3⟩ := h
  have hbad : ∀ c ∈ s.head?, c = ' ' ∨ c = '\t' ∨ c = '!' ∨ c = '&' := by
    intro c hc
    rcases hs with rfl | ⟨w, x, t, ⟨rfl, hw, hx⟩ | ⟨w, rfl, hw⟩⟩
    · simp at hc
    · cases w with
      | nil => simp at hc; subst hc; rcases hx with h | h <;> simp [h]
      | cons y w =>
        simp at hc; subst hc
        rcases hw y (by simp) with h | h <;> simp [h]
    · cases s with
      | nil => simp at hc
      | cons y w' =>
        simp at hc; subst hc
        rcases hw y (by simp) with h | h <;> simp [h]
  have hl : 7 ≤ m.length := by
    by_contra hlt
    cases hsd : s with
    | nil =>
      rw [hsd, List.append_nil] at h1
      have := congrArg List.length h1
      simp at this; omega
    | cons y t =>
      have hy := hbad y (by rw [hsd]; rfl)
      have hg : ((m ++ s).take 7).map lowChar = "include".toList := h1
      have := congrArg (fun l => l[m.length]?) hg
      beta_reduce at this
      rw [List.getElem?_map, List.getElem?_take_of_lt (by omega), List.getElem?_append_right (by omega),
        hsd] at this
      simp at this
      have hmem : lowChar y ∈ "include".toList := by
        apply List.mem_of_getElem? (i := m.length)
        exact this.symm
      rcases hy with rfl | rfl | rfl | rfl <;> revert hmem <;> decide
  refine ⟨?_, ?_⟩
  · rw [List.take_append_of_le_length hl] at h1; exact h1
  · rw [List.drop_append_of_le_length hl] at h2
    -- the quote is inside the statement text
    have key : ∀ a : Str, (a ++ s).dropWhile (· == ' ') = q :: r →
        ∃ q' r', a.dropWhile (· == ' ') = q' :: r' ∧ (q' = '\'' ∨ q' = '"') := by
      intro a
      induction a with
      | nil =>
        intro h
        exfalso
        have hq : ∀ w : Str, (∀ c ∈ w, Blk c) → ∀ z : Str, (w ++ z).dropWhile (· == ' ') = q :: r →
            (z.head? = none ∨ z.head? = some '!' ∨ z.head? = some '&') → False := by
          intro w
          induction w with
          | nil =>
            intro _ z hz hh
            cases z with
            | nil => simp at hz
            | cons y z =>
              simp only [List.head?_cons, Option.some.injEq, reduceCtorEq, false_or] at hh
              rw [List.nil_append, List.dropWhile_cons] at hz
              rw [if_neg (by rcases hh with rfl | rfl <;> decide)] at hz
              simp at hz
              obtain ⟨rfl, _⟩ := hz
              rcases hh with rfl | rfl <;> rcases h3 with h | h <;> revert h <;> decide
          | cons y w ih =>
            intro hw z hz hh
            rw [List.cons_append, List.dropWhile_cons] at hz
            rcases hw y (by simp) with rfl | rfl
            · rw [if_pos (by decide)] at hz
              exact ih (fun c hc => hw c (by simp [hc])) z hz hh
            · rw [if_neg (by decide)] at hz
              simp at hz
              obtain ⟨rfl, _⟩ := hz
              rcases h3 with h | h <;> revert h <;> decide
        rcases hs with rfl | ⟨w, x, t, ⟨rfl, hw, hx⟩ | ⟨w, rfl, hw⟩⟩
        · simp at h
        · exact hq w hw (x :: t) h (by rcases hx with rfl | rfl <;> simp)
        · exact hq s hw [] (by simpa using h) (by simp)
      | cons y a ih =>
        intro h
        rw [List.cons_append, List.dropWhile_cons] at h
        rw [List.dropWhile_cons]
        by_cases hy : (y == ' ') = true
        · rw [if_pos hy] at h ⊢
          exact ih h
        · rw [if_neg hy] at h ⊢
          simp at h
          exact ⟨y, a, rfl, by rw [h.1]; exact h3⟩
    obtain ⟨q', r', h4, h5⟩ := key _ h2
    exact ⟨q', r', h4, h5⟩

/-- The tail of a line is blanks, then nothing or a mark. -/
theorem tail_shape {m rs u : Str} {od : Char} {cont : Bool} (ht : LineTail m od cont rs u) :
    rs ++ u = [] ∨ ∃ w x t, rs ++ u = w ++ x :: t ∧ (∀ c ∈ w, Blk c) ∧ (x = '!' ∨ x = '&') ∨
      ∃ w, rs ++ u = w ∧ ∀ c ∈ w, Blk c := by
  obtain ⟨t1, t2, t3, t4⟩ := ht
  have hrsb : ∀ c ∈ rs, Blk c := by
    by_cases h : od = NUL
    · exact (t1 h).1
    · rw [t2 h]; simp
  right
  cases cont with
  | true =>
    obtain ⟨t, rfl, _⟩ := t3 rfl
    exact ⟨rs, '&', t, .inl ⟨rfl, hrsb, .inr rfl⟩⟩
  | false =>
    obtain ⟨_, rfl | ⟨t, rfl⟩⟩ := t4 rfl
    · exact ⟨[], ' ', [], .inr ⟨rs, by simp, hrsb⟩⟩
    · exact ⟨rs, '!', t, .inl ⟨rfl, hrsb, .inl rfl⟩⟩

/-- Everything about the statement text of a printed line. -/
structure Readable (pd od : Char) (cont : Bool) (m rs u : Str) : Prop where
  hd : validDelim pd = true
  hod : validDelim od = true
  state : ctxOf od = quoteState (ctxOf pd) m
  noMark : ∀ k, quoteState (ctxOf pd) (m.take k) = none → m[k]? ≠ some '!' ∧ m[k]? ≠ some '&'
  tail : LineTail m od cont rs u
  ascii : AsciiStr (m ++ (rs ++ u))

/-- A line with nothing to the left of its text. -/
theorem read_plain {ln : Int} {pd od : Char} {pc cont : Bool} {P m rs u : Str}
    (h : Readable pd od cont m rs u) (hP : ∀ c ∈ P, Blk c) (hP0 : P ≠ []) {c : Char} {t : Str}
    (hm : m = c :: t) (hsp : isSpace c = false) (hpd : pd = NUL) (hdig : pc = false → isDigit c = false)
    (hinc : ¬ startsInclude m) :
    ∃ g, analyzeFree ln (P ++ (m ++ (rs ++ u))) pd pc false = .ok (g, false) ∧ g.main_txt = m ∧
      g.left_txt = [] ∧ g.open_delim = od ∧ g.bits = { continued := cont } := by
  have hnb : isBlankChar c = false := by
    by_contra hx
    rw [blank_isSpace c (by simpa using hx)] at hsp; simp at hsp
  have hno := h.noMark 0 (by rw [hpd]; rfl)
  rw [hm] at hno
  simp at hno
  have hPb : ∀ c ∈ P, isBlankChar c = true := fun c hc => blk_blank (hP c hc)
  obtain ⟨hb, hi⟩ := body_blanks hPb (M := m ++ (rs ++ u)) (by rw [hm]; rfl) hnb
  have hca : isAscii c = true := h.ascii c (by rw [hm]; simp)
  have hPa : AsciiStr P := by
    intro x hx
    rcases hP x hx with rfl | rfl <;> rfl
  have hleft : freeLeft (P ++ (m ++ (rs ++ u))) pc P.length (upChar c) = .ok ([], {}, P.length, 0) := by
    unfold freeLeft
    have : cIsDigit (upChar c) = .ok (isDigit c) := by
      simp [cIsDigit, isAscii_upChar c hca, isDigit_upChar]
    rw [this]
    simp only [Res.ok_bind]
    rw [if_neg, if_neg]
    · rw [upChar_amp]; exact hno.2
    · cases pc with
      | true => simp
      | false => simp [hdig rfl]
  obtain ⟨g, g1, g2, g3, g4, g5⟩ := free_body (ln := ln) h.hd h.hod h.state h.noMark h.tail h.ascii
    hleft (by simp [freeSkip])
  refine ⟨g, ?_, g2, g3, g4, g5⟩
  refine free_top (c0 := c) (rest := t ++ (rs ++ u)) ?_ (by rw [hb, hm]; rfl) hno.1 ?_ ?_
    (by rw [hi]; exact g1)
  · intro x hx
    rcases List.mem_append.mp hx with hx | hx
    · exact hPa x hx
    · exact h.ascii x hx
  · cases P with
    | nil => exact absurd rfl hP0
    | cons x P =>
      simp
      rcases hP x (by simp) with rfl | rfl <;> decide
  · rw [hb]
    intro hx
    exact hinc (include_tail hx (tail_shape h.tail))

/-- A line with an ampersand in front of its text. -/
theorem read_front {ln : Int} {pd od : Char} {pc cont : Bool} {m rs u : Str}
    (h : Readable pd od cont m rs u) :
    ∃ g, analyzeFree ln ((blanks 5 ++ ['&']) ++ (m ++ (rs ++ u))) pd pc false = .ok (g, false) ∧
      g.main_txt = m ∧ g.left_txt = blanks 5 ++ ['&'] ∧ g.open_delim = od ∧
      g.bits = { continuation := true, continued := cont } := by
  have e0 : (blanks 5 ++ ['&']) ++ (m ++ (rs ++ u)) = blanks 5 ++ ('&' :: (m ++ (rs ++ u))) := by simp
  have hPb : ∀ c ∈ blanks 5, isBlankChar c = true := by decide
  obtain ⟨hb, hi⟩ := body_blanks hPb (M := '&' :: (m ++ (rs ++ u))) rfl (by decide)
  rw [← e0] at hb hi
  have hleft : freeLeft ((blanks 5 ++ ['&']) ++ (m ++ (rs ++ u))) pc 5 (upChar '&') =
      .ok (blanks 5 ++ ['&'], { continuation := true }, 6, 6) := by
    unfold freeLeft
    have : cIsDigit (upChar '&') = .ok false := by decide
    rw [this]
    simp only [Res.ok_bind]
    rw [if_neg (by simp), if_pos (by decide)]
    rfl
  obtain ⟨g, g1, g2, g3, g4, g5⟩ := free_body (ln := ln) h.hd h.hod h.state h.noMark h.tail h.ascii
    hleft (by simp [freeSkip, blanks])
  refine ⟨g, ?_, g2, g3, g4, g5⟩
  refine free_top (c0 := '&') (rest := m ++ (rs ++ u)) ?_ hb (by decide) ?_ ?_
    (by rw [hi]; exact g1)
  · intro x hx
    rcases List.mem_append.mp hx with hx | hx
    · have : AsciiStr (blanks 5 ++ ['&']) := by unfold AsciiStr; decide
      exact this x hx
    · exact h.ascii x hx
  · simp [blanks]
  · rw [hb]
    rintro ⟨h1, _⟩
    simp at h1
    exact absurd h1.1 (by decide)

theorem takeWhile_digits (ds : Str) (hds : ∀ c ∈ ds, isDigit c = true) (r : Str)
    (hr : ∀ c ∈ r.head?, isDigit c = false) : (ds ++ r).takeWhile isDigit = ds := by
  induction ds with
  | nil =>
    cases r with
    | nil => rfl
    | cons c r => simp [hr c (by simp)]
  | cons d ds ih =>
    simp [hds d (by simp), ih (fun c hc => hds c (by simp [hc]))]

theorem digit_notSpace {c : Char} (h : isDigit c = true) : isSpace c = false := by
  by_contra hx
  have hx : isSpace c = true := by simpa using hx
  rw [isDigit_toNat] at h
  unfold isSpace at hx
  simp at hx
  rcases hx with ((((rfl | rfl) | rfl) | rfl) | rfl) | rfl <;> revert h <;> decide

/-- A line with a label. -/
theorem read_label {ln : Int} {od : Char} {cont : Bool} {w ds ls m rs u : Str} {d : Char}
    (h : Readable NUL od cont m rs u) (hw : ∀ c ∈ w, c = ' ') (hd : isDigit d = true)
    (hds : ∀ c ∈ ds, isDigit c = true) (hlen : (w ++ d :: ds).length ≤ 6)
    (hls : ∀ c ∈ ls, Blk c) {c : Char} {t : Str} (hm : m = c :: t) (hsp : isSpace c = false)
    (hdig : isDigit c = false) :
    ∃ g, analyzeFree ln ((w ++ d :: ds) ++ ls ++ (m ++ (rs ++ u))) NUL false false = .ok (g, false) ∧
      g.main_txt = m ∧ g.left_txt = w ++ d :: ds ∧ g.open_delim = od ∧
      g.bits = { label := true, continued := cont } := by
  have hdn : isBlankChar d = false := by
    by_contra hx
    have := digit_notSpace hd
    rw [blank_isSpace d (by simpa using hx)] at this; simp at this
  have hwb : ∀ c ∈ w, isBlankChar c = true := by intro c hc; rw [hw c hc]; rfl
  have e0 : (w ++ d :: ds) ++ ls ++ (m ++ (rs ++ u)) = w ++ (d :: (ds ++ (ls ++ (m ++ (rs ++ u))))) := by
    simp
  obtain ⟨hb, hi⟩ := body_blanks hwb (M := d :: (ds ++ (ls ++ (m ++ (rs ++ u))))) rfl hdn
  rw [← e0] at hb hi
  have hdigA : ∀ c, isDigit c = true → isAscii c = true := by
    intro c hc
    rw [isDigit_toNat] at hc
    unfold isAscii; simp; omega
  have hall : AsciiStr ((w ++ d :: ds) ++ ls ++ (m ++ (rs ++ u))) := by
    intro x hx
    rcases List.mem_append.mp hx with hx | hx
    · rcases List.mem_append.mp hx with hx | hx
      · rcases List.mem_append.mp hx with hx | hx
        · rw [hw x hx]; rfl
        · rcases List.mem_cons.mp hx with rfl | hx
          · exact hdigA _ hd
          · exact hdigA _ (hds x hx)
      · rcases hls x hx with rfl | rfl <;> rfl
    · exact h.ascii x hx
  have hhead : ∀ x ∈ (ls ++ (m ++ (rs ++ u))).head?, isDigit x = false := by
    intro x hx
    cases ls with
    | nil => rw [hm] at hx; simp at hx; subst hx; exact hdig
    | cons y ls =>
      simp at hx; subst hx
      rcases hls y (by simp) with rfl | rfl <;> rfl
  have hdrop : ((w ++ d :: ds) ++ ls ++ (m ++ (rs ++ u))).drop w.length =
      (d :: ds) ++ (ls ++ (m ++ (rs ++ u))) := by
    rw [e0, List.drop_left]; simp
  have hscan : scanDigits 6 w.length
      (((w ++ d :: ds) ++ ls ++ (m ++ (rs ++ u))).drop w.length) = .ok (w ++ d :: ds).length := by
    obtain ⟨r, hr⟩ := scanDigits_ascii 6 w.length _ (hall.drop w.length)
    rw [hr]
    have := scanDigits_ok _ _ _ _ hr
    rw [hdrop] at this
    rw [this]
    have hle : (d :: ds).length ≤ 6 := by
      have := hlen
      simp only [List.length_append] at this; omega
    have : (((d :: ds) ++ (ls ++ (m ++ (rs ++ u)))).take 6).takeWhile isDigit = d :: ds := by
      rw [List.take_append, List.take_of_length_le hle]
      refine takeWhile_digits (d :: ds) ?_ _ ?_
      · intro c hc
        rcases List.mem_cons.mp hc with rfl | hc
        · exact hd
        · exact hds c hc
      · intro x hx
        apply hhead x
        cases hn : 6 - (d :: ds).length with
        | zero => rw [hn] at hx; simp at hx
        | succ k =>
          rw [hn] at hx
          cases hz : ls ++ (m ++ (rs ++ u)) with
          | nil => rw [hz] at hx; simp at hx
          | cons y z => rw [hz] at hx; simpa using hx
    rw [this]; simp
  have hleft : freeLeft ((w ++ d :: ds) ++ ls ++ (m ++ (rs ++ u))) false w.length (upChar d) =
      .ok (w ++ d :: ds, { label := true }, (w ++ d :: ds).length, (w ++ d :: ds).length) := by
    unfold freeLeft
    have : cIsDigit (upChar d) = .ok true := by
      simp [cIsDigit, isAscii_upChar d (hdigA _ hd), isDigit_upChar, hd]
    rw [this]
    simp only [Res.ok_bind]
    rw [if_pos (by decide), hscan]
    simp only [Res.ok_bind]
    rw [List.append_assoc, List.take_left]
  have hskip : freeSkip ((w ++ d :: ds) ++ ls ++ (m ++ (rs ++ u))) (w ++ d :: ds) { label := true }
      (w ++ d :: ds).length = .ok ((w ++ d :: ds) ++ ls).length := by
    unfold freeSkip
    rw [if_pos ⟨by simp, rfl⟩]
    obtain ⟨r, hr⟩ := scanSpaces_ascii (w ++ d :: ds).length _ (hall.drop (w ++ d :: ds).length)
    rw [hr]
    have := scanSpaces_ok _ _ _ hr
    rw [List.append_assoc, List.drop_left] at this
    rw [this]
    have htw : ∀ ls : Str, (∀ c ∈ ls, Blk c) →
        (ls ++ (m ++ (rs ++ u))).takeWhile isSpace = ls := by
      intro ls
      induction ls with
      | nil => intro _; rw [hm]; simp [hsp]
      | cons y ls ih =>
        intro hl
        simp [blk_space (hl y (by simp)), ih (fun c hc => hl c (by simp [hc]))]
    rw [htw ls hls]
    simp; omega
  obtain ⟨g, g1, g2, g3, g4, g5⟩ := free_body (ln := ln) h.hd h.hod h.state h.noMark h.tail h.ascii
    hleft hskip
  refine ⟨g, ?_, g2, g3, g4, g5⟩
  have hd1 : d ≠ '!' ∧ d ≠ '#' := by
    constructor <;> rintro rfl <;> revert hd <;> decide
  refine free_top (c0 := d) (rest := ds ++ (ls ++ (m ++ (rs ++ u)))) hall hb hd1.1 ?_ ?_
    (by rw [hi]; exact g1)
  · cases w with
    | nil => simp; exact hd1.2
    | cons x w => simp; rw [hw x (by simp)]; decide
  · rw [hb]
    rintro ⟨h1, _⟩
    simp at h1
    have h1 := h1.1
    rw [lowChar_eq_i] at h1
    rcases h1 with rfl | rfl <;> revert hd <;> decide

end FLPR
