import Verif.LogicalLine.ReformatProps
/-!
# Removing empty statements (C17)
-/

namespace FLPR
open Spec

/-- The effect of clearing and dropping: a semicolon behind a semicolon is left out. -/
def collapse : Bool → List Tok → List Tok
  | _, [] => []
  | prev, t :: ts => if prev && t.isSemi then collapse true ts else t :: collapse t.isSemi ts

theorem dropCleared_clearSemis (ts : List Tok) : ∀ prev : Bool,
    (∀ t ∈ ts, t.isSemi = true → t.text ≠ []) →
    dropCleared (clearSemis prev ts) = collapse prev ts := by
  induction ts with
  | nil => intro _ _; rfl
  | cons t ts ih =>
    intro prev h
    have ih' := fun b => ih b (fun u hu => h u (by simp [hu]))
    unfold dropCleared at ih' ⊢
    rw [clearSemis, collapse, List.filter_cons]
    by_cases hp : (prev && t.isSemi) = true
    · rw [if_pos hp, if_pos hp]
      have hs : t.isSemi = true := by simp at hp; exact hp.2
      have : (t.modText.write []).isSemi = true := hs
      have h2 : (t.modText.write []).text.isEmpty = true := rfl
      rw [if_neg (by simp [this, h2]), hs, ih' true]
    · rw [if_neg hp, if_neg hp, ih']
      rw [if_pos]
      by_cases hs : t.isSemi = true
      · have := h t (by simp) hs
        simp [this]
      · simp [hs]

theorem collapse_of_noDouble (ts : List Tok) : ∀ prev : Bool, doubleSemi prev ts = false →
    collapse prev ts = ts := by
  induction ts with
  | nil => intro _ _; rfl
  | cons t ts ih =>
    intro prev h
    rw [doubleSemi, Bool.or_eq_false_iff] at h
    rw [collapse, if_neg (by simp [h.1]), ih _ h.2]

theorem collapse_length (ts : List Tok) : ∀ prev : Bool, doubleSemi prev ts = true →
    (collapse prev ts).length < ts.length := by
  have hle : ∀ (ts : List Tok) (b : Bool), (collapse b ts).length ≤ ts.length := by
    intro ts
    induction ts with
    | nil => intro b; simp [collapse]
    | cons t ts ih =>
      intro b
      rw [collapse]
      split
      · have := ih true; simp; omega
      · have := ih t.isSemi; simp; omega
  induction ts with
  | nil => intro b h; simp [doubleSemi] at h
  | cons t ts ih =>
    intro b h
    rw [doubleSemi, Bool.or_eq_true] at h
    rw [collapse]
    split
    · have := hle ts true; simp; omega
    · rename_i hn
      rcases h with h | h
      · exact absurd h hn
      · have := ih _ h; simp; omega

theorem segments_semi {t : Tok} (ts : List Tok) (h : t.isSemi = true) :
    segments (t :: ts) = [] :: segments ts := by
  rw [segments, if_pos ((isSemi_iff t).mp h)]

theorem segments_cons {t : Tok} {ts s : List Tok} {ss : List (List Tok)} (h : t.isSemi = false)
    (hs : segments ts = s :: ss) : segments (t :: ts) = (t :: s) :: ss := by
  have : ¬ t.token = Tag.TK_SEMICOLON := by rw [← isSemi_iff, h]; simp
  rw [segments, if_neg this, hs]

theorem segments_shape (ts : List Tok) : ∃ s ss, segments ts = s :: ss := by
  cases hs : segments ts with
  | nil => exact absurd hs (segments_ne ts)
  | cons s ss => exact ⟨s, ss, rfl⟩

/-- The statements (non-empty pieces between semicolons). -/
def realSegments (ts : List Tok) : List (List Tok) := (segments ts).filter (fun s => !s.isEmpty)

theorem collapse_segments (ts : List Tok) :
    (∀ s ss, segments ts = s :: ss → ∃ ss', segments (collapse false ts) = s :: ss' ∧
      ss'.filter (fun s => !s.isEmpty) = ss.filter (fun s => !s.isEmpty)) ∧
    realSegments (collapse true ts) = realSegments ts := by
  induction ts with
  | nil =>
    refine ⟨?_, rfl⟩
    intro s ss h
    exact ⟨ss, h, rfl⟩
  | cons t ts ih =>
    obtain ⟨ih1, ih2⟩ := ih
    by_cases ht : t.isSemi = true
    · constructor
      · intro s ss h
        rw [segments_semi ts ht] at h
        simp only [List.cons.injEq] at h
        obtain ⟨rfl, rfl⟩ := h
        refine ⟨segments (collapse true ts), ?_, ih2⟩
        rw [collapse]
        simp only [Bool.false_and, Bool.false_eq_true, if_false, ht]
        exact segments_semi _ ht
      · rw [collapse]
        simp only [ht, Bool.and_self, if_true]
        rw [ih2]
        unfold realSegments
        rw [segments_semi ts ht]
        simp
    · have ht' : t.isSemi = false := by simpa using ht
      obtain ⟨s, ss, hs⟩ := segments_shape ts
      obtain ⟨ss', hs', hf⟩ := ih1 s ss hs
      have hcol : ∀ b, collapse b (t :: ts) = t :: collapse false ts := by
        intro b; rw [collapse]; simp [ht']
      have hseg := segments_cons ht' hs'
      have hseg0 := segments_cons ht' hs
      constructor
      · intro u us h
        rw [hseg0] at h
        simp only [List.cons.injEq] at h
        obtain ⟨rfl, rfl⟩ := h
        exact ⟨ss', by rw [hcol, hseg], hf⟩
      · unfold realSegments
        rw [hcol, hseg, hseg0]
        simp [hf]

theorem collapse_real (ts : List Tok) : realSegments (collapse false ts) = realSegments ts := by
  obtain ⟨s, ss, hs⟩ := segments_shape ts
  obtain ⟨ss', hs', hf⟩ := (collapse_segments ts).1 s ss hs
  unfold realSegments
  rw [hs', hs, List.filter_cons, List.filter_cons, hf]

theorem collapse_no_empty (ts : List Tok) :
    ts ≠ [] → (∀ t, ts.getLast? = some t → t.isSemi = false) →
    (∀ t, ts.head? = some t → t.isSemi = false → [] ∉ segments (collapse false ts)) ∧
    [] ∉ segments (collapse true ts) := by
  induction ts with
  | nil => intro h; exact absurd rfl h
  | cons t ts ih =>
    intro _ hlast
    by_cases hts : ts = []
    · subst hts
      have ht : t.isSemi = false := hlast t (by simp)
      have hn : ¬ t.token = Tag.TK_SEMICOLON := by rw [← isSemi_iff, ht]; simp
      constructor
      · intro u _ _
        simp [collapse, segments, hn]
      · simp [collapse, ht, segments, hn]
    · have hlast' : ∀ u, ts.getLast? = some u → u.isSemi = false := by
        intro u hu
        apply hlast u
        rw [List.getLast?_cons, hu]
        rfl
      obtain ⟨i1, i2⟩ := ih hts hlast'
      have hns : t.isSemi = false → [] ∉ segments (t :: collapse false ts) := by
        intro ht
        obtain ⟨s, ss, hs⟩ := segments_shape (collapse false ts)
        rw [segments_cons ht hs]
        obtain ⟨u, us, rfl⟩ : ∃ u us, ts = u :: us := by
          cases ts with
          | nil => exact absurd rfl hts
          | cons u us => exact ⟨u, us, rfl⟩
        by_cases hu : u.isSemi = true
        · have hc : collapse false (u :: us) = u :: collapse true us := by
            rw [collapse]; simp [hu]
          have hc2 : collapse true (u :: us) = collapse true us := by
            rw [collapse]; simp [hu]
          rw [hc, segments_semi _ hu] at hs
          simp only [List.cons.injEq] at hs
          rw [hc2] at i2
          rw [← hs.2]
          simp [i2]
        · have := i1 u rfl (by simpa using hu)
          rw [hs] at this
          simp at this
          simp [this]
      constructor
      · intro u hu hsu
        simp at hu
        subst hu
        rw [collapse]
        simp only [Bool.false_and, Bool.false_eq_true, if_false, hsu]
        exact hns hsu
      · by_cases ht : t.isSemi = true
        · rw [collapse]
          simp only [ht, Bool.and_self, if_true]
          exact i2
        · have ht' : t.isSemi = false := by simpa using ht
          rw [collapse]
          simp only [ht', Bool.and_false, Bool.false_eq_true, if_false]
          exact hns ht'

theorem double_semi_kept (ts : List Tok) (h : doubleSemi false ts = true) :
    0 < (collapse false ts).countP (·.isSemi) := by
  induction ts with
  | nil => simp [doubleSemi] at h
  | cons t ts ih =>
    rw [collapse]
    simp only [Bool.false_and, Bool.false_eq_true, if_false]
    by_cases ht : t.isSemi = true
    · rw [List.countP_cons_of_pos (by simpa using ht)]; omega
    · have ht' : t.isSemi = false := by simpa using ht
      rw [doubleSemi] at h
      simp only [Bool.false_and, Bool.false_or, ht'] at h
      rw [List.countP_cons_of_neg (by simp [ht']), ht']
      exact ih h

theorem realSegments_dropWhile (ts : List Tok) :
    realSegments (ts.dropWhile Tok.isSemi) = realSegments ts := by
  induction ts with
  | nil => rfl
  | cons t ts ih =>
    rw [List.dropWhile_cons]
    split
    · rename_i h
      rw [ih]
      unfold realSegments
      rw [segments_semi ts h]
      simp
    · rfl

theorem segments_concat_semi (ts : List Tok) (t : Tok) (h : t.isSemi = true) :
    segments (ts ++ [t]) = segments ts ++ [[]] := by
  induction ts with
  | nil => rw [List.nil_append, segments_semi [] h]; rfl
  | cons u us ih =>
    by_cases hu : u.isSemi = true
    · rw [List.cons_append, segments_semi _ hu, segments_semi _ hu, ih]; rfl
    · have hu' : u.isSemi = false := by simpa using hu
      obtain ⟨s, ss, hs⟩ := segments_shape us
      rw [List.cons_append, segments_cons hu' hs]
      rw [hs] at ih
      rw [segments_cons hu' (s := s) (ss := ss ++ [[]]) (by simpa using ih)]
      rfl

theorem popSemis_split (ts : List Tok) : ∃ ys, ts = popSemis ts ++ ys ∧ ∀ t ∈ ys, t.isSemi = true := by
  refine ⟨(ts.reverse.takeWhile Tok.isSemi).reverse, ?_, ?_⟩
  · unfold popSemis
    rw [← List.reverse_append, List.takeWhile_append_dropWhile, List.reverse_reverse]
  · intro t ht
    exact List.mem_takeWhile_imp (List.mem_reverse.mp ht)

theorem realSegments_popSemis (ts : List Tok) : realSegments (popSemis ts) = realSegments ts := by
  obtain ⟨ys, he, hy⟩ := popSemis_split ts
  have : ∀ (ys : List Tok) (a : List Tok), (∀ t ∈ ys, t.isSemi = true) →
      realSegments (a ++ ys) = realSegments a := by
    intro ys
    induction ys with
    | nil => intro a _; simp
    | cons y ys ih =>
      intro a h
      rw [show a ++ y :: ys = (a ++ [y]) ++ ys by simp, ih _ (fun t ht => h t (by simp [ht]))]
      unfold realSegments
      rw [segments_concat_semi a y (h y (by simp))]
      simp
  conv => rhs; rw [he]
  exact (this ys _ hy).symm

theorem popSemis_last (ts : List Tok) (t : Tok) (h : (popSemis ts).getLast? = some t) :
    t.isSemi = false := by
  unfold popSemis at h
  rw [List.getLast?_reverse] at h
  have := List.head?_dropWhile_not Tok.isSemi ts.reverse
  rw [h] at this
  simpa using this

theorem popSemis_head (ts : List Tok) (t : Tok) (h : (popSemis ts).head? = some t) :
    ts.head? = some t := by
  obtain ⟨ys, he, _⟩ := popSemis_split ts
  cases hp : popSemis ts with
  | nil => rw [hp] at h; simp at h
  | cons a as =>
    rw [hp] at h he
    rw [he]
    simpa using h

/-- The tokens that `remove_empty_statements` leaves, in one formula. -/
theorem removeEmptyFrags_eq (l : LLine) (hst : l.stmts = l.initStmts.stmts)
    (hsemi : ∀ t ∈ l.frags, t.token = Tag.TK_SEMICOLON → t.text ≠ []) :
    let fr := collapse false (popSemis (l.frags.dropWhile Tok.isSemi))
    l.removeEmptyFrags = .ok (fr, decide (fr ≠ l.frags)) ∧
    realSegments fr = realSegments l.frags ∧ (fr = [] ∨ [] ∉ segments fr) := by
  dsimp only
  have hnum : (realSegments l.frags).length = l.stmts.length := by
    rw [hst]
    have := (C16_statements l).1
    unfold realSegments
    rw [← this, List.length_map]
  generalize hfr1 : l.frags.dropWhile Tok.isSemi = fr1
  generalize hfr2 : popSemis fr1 = fr2
  have hreal2 : realSegments fr2 = realSegments l.frags := by
    rw [← hfr2, realSegments_popSemis, ← hfr1, realSegments_dropWhile]
  have hreal3 : realSegments (collapse false fr2) = realSegments l.frags := by
    rw [collapse_real, hreal2]
  have hhead : ∀ t, fr2.head? = some t → t.isSemi = false := by
    intro t ht
    rw [← hfr2] at ht
    have := popSemis_head fr1 t ht
    rw [← hfr1] at this
    have h2 := List.head?_dropWhile_not Tok.isSemi l.frags
    rw [this] at h2
    simpa using h2
  have hlast : ∀ t, fr2.getLast? = some t → t.isSemi = false := by
    intro t ht
    rw [← hfr2] at ht
    exact popSemis_last fr1 t ht
  have hne : collapse false fr2 = [] ∨ [] ∉ segments (collapse false fr2) := by
    cases h : fr2 with
    | nil => left; rfl
    | cons a as =>
      right
      rw [← h]
      exact (collapse_no_empty fr2 (by rw [h]; simp) hlast).1 a (by rw [h]; rfl)
        (hhead a (by rw [h]; rfl))
  have hsub : ∀ t ∈ fr2, t ∈ l.frags := by
    intro t ht
    obtain ⟨ys, he, _⟩ := popSemis_split fr1
    rw [hfr2] at he
    have : t ∈ fr1 := by rw [he]; simp [ht]
    rw [← hfr1] at this
    exact (List.dropWhile_suffix _).subset this
  have hsemi2 : ∀ t ∈ fr2, t.isSemi = true → t.text ≠ [] :=
    fun t ht hs => hsemi t (hsub t ht) ((isSemi_iff t).mp hs)
  -- a doubled semicolon means that there are at least two statements
  have hdbl : doubleSemi false fr2 = true → 1 < l.stmts.length := by
    intro hd
    have h1 := double_semi_kept fr2 hd
    have h2 := segments_length (collapse false fr2)
    have hne' : [] ∉ segments (collapse false fr2) := by
      rcases hne with h | h
      · rw [h] at h1; simp at h1
      · exact h
    have h3 : realSegments (collapse false fr2) = segments (collapse false fr2) := by
      unfold realSegments
      rw [List.filter_eq_self]
      intro s hs
      cases s with
      | nil => exact absurd hs hne'
      | cons => rfl
    rw [h3] at hreal3
    rw [← hnum, ← hreal3]
    omega
  have hfr3 : (if (decide (l.stmts.length > 1) && doubleSemi false fr2) = true then
      dropCleared (clearSemis false fr2) else fr2) = collapse false fr2 := by
    by_cases hd : doubleSemi false fr2 = true
    · have := hdbl hd
      rw [if_pos (by simp [hd]; omega), dropCleared_clearSemis fr2 false hsemi2]
    · have hd' : doubleSemi false fr2 = false := by simpa using hd
      rw [if_neg (by simp [hd']), collapse_of_noDouble fr2 false hd']
  have hlen1 : fr1.length ≤ l.frags.length := by
    rw [← hfr1]; exact (List.dropWhile_suffix _).length_le
  obtain ⟨ys, hys, hysemi⟩ := popSemis_split fr1
  rw [hfr2] at hys
  have hlen2 : fr2.length ≤ fr1.length := by rw [hys]; simp
  have hub : ¬ (fr2.length ≠ fr1.length ∧ l.stmts = []) := by
    rintro ⟨h1, h2⟩
    rw [h2] at hnum
    simp only [List.length_nil, List.length_eq_zero_iff] at hnum
    rw [hnum] at hreal3
    have hfr1ne : fr1 ≠ [] := by
      rintro rfl
      simp at hlen2
      exact h1 (by rw [hlen2])
    obtain ⟨a, as, ha⟩ : ∃ a as, fr1 = a :: as := by
      cases fr1 with
      | nil => exact absurd rfl hfr1ne
      | cons a as => exact ⟨a, as, rfl⟩
    have hasemi : a.isSemi = false := by
      have h2 := List.head?_dropWhile_not Tok.isSemi l.frags
      rw [hfr1, ha] at h2
      simpa using h2
    have hr1 : realSegments fr1 = [] := by
      rw [← hfr1, realSegments_dropWhile, hnum]
    obtain ⟨s, ss, hs⟩ := segments_shape as
    unfold realSegments at hr1
    rw [ha, segments_cons hasemi hs] at hr1
    simp at hr1
  refine ⟨?_, hreal3, hne⟩
  unfold LLine.removeEmptyFrags
  simp only [hfr1, hfr2]
  rw [if_neg (by simpa using hub), hfr3]
  congr 2
  rw [Bool.eq_iff_iff]
  simp only [Bool.or_eq_true, decide_eq_true_eq, Bool.and_eq_true]
  constructor
  · rintro ((h | ⟨_, h⟩) | h)
    · intro he
      have hcl : (collapse false fr2).length ≤ fr2.length := by
        by_cases hd : doubleSemi false fr2 = true
        · exact Nat.le_of_lt (collapse_length fr2 false hd)
        · rw [collapse_of_noDouble fr2 false (by simpa using hd)]
      rw [he] at hcl
      omega
    · intro he
      have := collapse_length fr2 false h
      rw [he] at this
      omega
    · intro he
      have hcl : (collapse false fr2).length ≤ fr2.length := by
        by_cases hd : doubleSemi false fr2 = true
        · exact Nat.le_of_lt (collapse_length fr2 false hd)
        · rw [collapse_of_noDouble fr2 false (by simpa using hd)]
      rw [he] at hcl
      omega
  · intro he
    by_contra hn
    push Not at hn
    obtain ⟨⟨h1, h2⟩, h3⟩ := hn
    have e1 : fr1 = l.frags := by
      rw [← hfr1]
      exact (List.dropWhile_suffix _).eq_of_length (by rw [hfr1]; exact h1)
    have e2 : fr2 = fr1 := by
      have : ys = [] := by
        have := congrArg List.length hys
        rw [List.length_append] at this
        exact List.length_eq_zero_iff.mp (by omega)
      rw [hys, this, List.append_nil]
    have e3 : doubleSemi false fr2 = false := by
      by_cases hd : doubleSemi false fr2 = true
      · exact absurd hd (h2 (hdbl hd))
      · simpa using hd
    apply he
    rw [collapse_of_noDouble fr2 false e3, e2, e1]

/-- **C17** (the tokens) For every line whose statements are up to date, removing empty statements
leaves exactly the statements, with the same tokens in the same order, and no empty
statement; the value returned tells whether the tokens changed.  (A semicolon token has text; the
scanner makes no other.) -/
theorem C17_tokens (l : LLine) (hst : l.stmts = l.initStmts.stmts)
    (hsemi : ∀ t ∈ l.frags, t.token = Tag.TK_SEMICOLON → t.text ≠ []) :
    ∃ fr b, l.removeEmptyFrags = .ok (fr, b) ∧
      (segments fr).filter (fun s => !s.isEmpty) = (segments l.frags).filter (fun s => !s.isEmpty) ∧
      (fr = [] ∨ [] ∉ segments fr) ∧
      (b = true ↔ fr ≠ l.frags) := by
  obtain ⟨h1, h2, h3⟩ := removeEmptyFrags_eq l hst hsemi
  exact ⟨_, _, h1, h2, h3, by simp⟩

example : (∃ l : LLine, l.stmts = l.initStmts.stmts ∧
    l.frags = [tokOf Tag.TK_SEMICOLON ";", tokOf Tag.TK_NAME "a", tokOf Tag.TK_SEMICOLON ";",
      tokOf Tag.TK_SEMICOLON ";", tokOf Tag.TK_NAME "b", tokOf Tag.TK_SEMICOLON ";"] ∧
    l.removeEmptyFrags = .ok ([tokOf Tag.TK_NAME "a", tokOf Tag.TK_SEMICOLON ";",
      tokOf Tag.TK_NAME "b"], true)) :=
  ⟨({ frags := [tokOf Tag.TK_SEMICOLON ";", tokOf Tag.TK_NAME "a", tokOf Tag.TK_SEMICOLON ";",
      tokOf Tag.TK_SEMICOLON ";", tokOf Tag.TK_NAME "b", tokOf Tag.TK_SEMICOLON ";"] } :
      LLine).initStmts, by decide, by decide, by decide⟩

/-- **C17** (the line) When the call returns, the statements of the line are the non-empty statements
it had, none is empty, `has_empty_statements` is false, and the value returned tells whether
anything changed. -/
theorem C17_line (l l' : LLine) (b : Bool) (hst : l = l.initStmts)
    (hsemi : ∀ t ∈ l.frags, t.token = Tag.TK_SEMICOLON → t.text ≠ [])
    (hf : ∃ f fs, l.layout = f :: fs ∧ f.isFortran = true)
    (h : l.removeEmpty = .ok (l', b)) :
    l'.stmts.map (slice l'.frags) = l.stmts.map (slice l.frags) ∧
    l'.hasEmptyStatements = .ok false ∧
    (b = true ↔ l'.frags ≠ l.frags) ∧ (b = false → l' = l) := by
  obtain ⟨h1, h2, h3⟩ := removeEmptyFrags_eq l (by rw [← hst]) hsemi
  obtain ⟨f, fs, hlay, hff⟩ := hf
  generalize hfr : collapse false (popSemis (l.frags.dropWhile Tok.isSemi)) = fr at h1 h2 h3
  -- the line afterwards has these tokens and up-to-date statements
  have hkey : l'.frags = fr ∧ l'.initStmts = l' ∧ (b = true ↔ fr ≠ l.frags) ∧ (b = false → l' = l) := by
    unfold LLine.removeEmpty at h
    rw [h1] at h
    simp only [Res.ok_bind] at h
    by_cases hc : fr = l.frags
    · simp only [hc, ne_eq, not_true, decide_false, Bool.false_eq_true, if_false,
        Except.ok.injEq, Prod.mk.injEq] at h
      obtain ⟨rfl, rfl⟩ := h
      exact ⟨hc.symm, hst.symm, by simp [hc], fun _ => rfl⟩
    · simp only [hc, ne_eq, not_false_iff, decide_true, if_true] at h
      rbind h with l2 hl2
      simp only [Except.ok.injEq, Prod.mk.injEq] at h
      obtain ⟨rfl, rfl⟩ := h
      unfold LLine.textFromFrags at hl2
      simp only [hlay] at hl2
      simp only [hff, Bool.true_eq_false, if_false] at hl2
      rbind hl2 with m hm
      rbind hl2 with s hs
      generalize ((if fr = [] then s.done else s.done ++ [s.cur]) ++
        (if fr = [] then s.cur :: s.rest else s.rest).map leftover) = lay at hl2
      by_cases hb : (if fr = [] then s.cur :: s.rest else s.rest).any blanked = true
      · rw [if_pos hb] at hl2
        have := Except.ok.inj hl2
        subst this
        exact ⟨rfl, rfl, by simp [hc], by simp⟩
      · rw [if_neg hb] at hl2
        have := Except.ok.inj hl2
        subst this
        exact ⟨rfl, rfl, by simp [hc], by simp⟩
  obtain ⟨k1, k2, k3, k4⟩ := hkey
  have hs1 := (C16_statements l).1
  have hs2 := (C16_statements l').1
  rw [← hst] at hs1
  rw [k2] at hs2
  refine ⟨?_, ?_, by rw [k1]; exact k3, k4⟩
  · rw [hs2, hs1, k1]
    exact h2
  · obtain ⟨x, hx, hiff⟩ := C16_has_empty l'
    rw [k2] at hx
    rw [hx]
    congr 1
    rw [Bool.eq_false_iff, Ne, hiff, k1]
    rintro ⟨⟨t, ht, _⟩, hm⟩
    rcases h3 with h3 | h3
    · rw [h3] at ht; simp at ht
    · exact h3 hm

/-- The printed lines of a free-format logical line after `remove_empty_statements`. -/
def emptyRemoved (raw : List String) : Res (Option (List String × Bool)) := do
  match ← freeLines raw with
  | none => .ok none
  | some fs =>
    let r ← LLine.ofLines {} fs
    let s ← r.1.removeEmpty
    .ok (some (s.1.layout.map (fun f => String.ofList f.print), s.2))

example : emptyRemoved ["10 ;a = 1;; b=2 ; ! hi"] = .ok (some (["10 a = 1; b=2 ! hi"], true)) := by
  decide +kernel

/-- **C17** With a fused keyword behind the first token the call reads an uninitialised number. -/
theorem C17_violation_fused : emptyRemoved ["; a = 1; enddo"] = .error .ub := by decide +kernel

end FLPR
