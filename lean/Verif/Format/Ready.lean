import Verif.Format.WholeProps
import Verif.Lexer.Spell
import Verif.LogicalLine.TokLemmas2
/-!
# C82: which lines are ready to be split
-/

namespace FLPR
open Spec

theorem table_heads : ∀ x ∈ Tag.table, (x.2 = 3 ∨ x.2 = 4) → x.1.toList ≠ [] ∧ (x.1.toList.map lowChar).head? ≠ some '&' := by decide +kernel

theorem digit_head {s : Str} (h : DigitText s) : s ≠ [] ∧ s.head? ≠ some '&' := by
  refine ⟨h.1, fun e => ?_⟩
  cases s with
  | nil => cases e
  | cons c s =>
    obtain rfl := Option.some.inj e
    exact absurd (h.2 '&' (by simp)) (by decide)

theorem name_head {s : Str} (h : NameText s) : s ≠ [] ∧ s.head? ≠ some '&' := by
  obtain ⟨c, t, rfl, h, _⟩ := h
  refine ⟨by simp, fun e => ?_⟩
  obtain rfl := Option.some.inj e
  exact absurd h (by decide)

theorem kind_head {s : Str} (h : KindText s) : s ≠ [] ∧ s.head? ≠ some '&' := h.elim digit_head name_head

theorem app_head {a b : Str} (h : a ≠ [] ∧ a.head? ≠ some '&') : a ++ b ≠ [] ∧ (a ++ b).head? ≠ some '&' := by
  cases a with
  | nil => exact absurd rfl h.1
  | cons c a => exact ⟨by simp, h.2⟩

theorem low_head {s : Str} {t : Int} (hk : tagKind t = some 3 ∨ tagKind t = some 4) (h : tagName t = some (s.map lowChar)) :
    s ≠ [] ∧ s.head? ≠ some '&' := by
  unfold tagKind at hk
  unfold tagName at h
  cases hx : Tag.table[t.toNat]? with
  | none => rw [hx] at h; cases h
  | some x =>
    rw [hx] at hk h
    simp only [Option.map_some, Option.some.injEq] at hk h
    obtain ⟨h1, h2⟩ := table_heads x (List.mem_of_getElem? hx) hk
    rw [h] at h2
    refine ⟨?_, fun e => h2 ?_⟩
    · rintro rfl
      rw [List.map_nil, List.map_eq_nil_iff] at h
      exact h1 h
    · cases s with
      | nil => cases e
      | cons c s =>
        obtain rfl := Option.some.inj e
        rfl

theorem spells_head {t : Int} {s : Str} (h : Spells t s) : s ≠ [] ∧ (s.head? = some '&' → t = Tag.UNKNOWN ∧ s = ['&']) := by
  suffices key : (s ≠ [] ∧ s.head? ≠ some '&') ∨ (t = Tag.UNKNOWN ∧ ∃ c, s = [c]) by
    rcases key with ⟨h1, h2⟩ | ⟨h1, c, rfl⟩
    · exact ⟨h1, fun e => absurd e h2⟩
    · refine ⟨by simp, fun e => ⟨h1, ?_⟩⟩
      obtain rfl := Option.some.inj e
      rfl
  have lowered : ∀ {w : Str}, w ≠ [] → w.head? ≠ some '&' → ∀ {s : Str}, s.map lowChar = w → s ≠ [] ∧ s.head? ≠ some '&' := by
    intro w h1 h2 s e
    subst e
    cases s with
    | nil => exact absurd rfl h1
    | cons c s =>
      refine ⟨by simp, fun e => h2 ?_⟩
      obtain rfl := Option.some.inj e
      rfl
  rcases h with ⟨hk, h⟩ | ⟨hk, h | ⟨p, hp, h1, _⟩⟩ | ⟨_, h, _⟩ | ⟨_, m, rfl, _⟩ | ⟨_, a, b, rfl, h, _⟩ | ⟨_, a, b, rfl, h, _⟩ |
    ⟨_, a, q, b, rfl, hq, h, _⟩ | ⟨_, a, b, rfl, h, _⟩ | ⟨_, h | ⟨a, b, rfl, h1, h2, h3⟩⟩ | ⟨_, h⟩ | ⟨_, g, d, rfl, hg, h⟩ | ⟨_, h⟩ | ⟨h, c, h2, _⟩
  · exact .inl (low_head (.inr hk) h)
  · exact .inl (low_head (.inl hk) h)
  · left
    have ho : ∀ p ∈ oldRelation, p.1.toList ≠ [] ∧ p.1.toList.head? ≠ some '&' := by decide
    exact lowered (ho p hp).1 (ho p hp).2 h1.symm
  · exact .inl (name_head h)
  · exact .inl ⟨by simp, by simp⟩
  · exact .inl (app_head (lowered (by decide) (by decide) h))
  · exact .inl (app_head (lowered (by decide) (by decide) h))
  · left
    rcases h with rfl | ⟨k, rfl, h⟩
    · rcases hq with rfl | rfl <;> simp
    · rw [List.append_assoc]
      exact app_head (kind_head h)
  · exact .inl (app_head (digit_head h))
  · exact .inl (digit_head h)
  · left
    cases a with
    | nil => exact ⟨by simp, by simp⟩
    | cons c a =>
      refine ⟨by simp, fun e => ?_⟩
      obtain rfl := Option.some.inj e
      exact absurd (h1 '&' (by simp)) (by decide)
  · left
    simp only [List.mem_cons, List.not_mem_nil, or_false] at h
    rcases h with h | h
    · exact lowered (by decide) (by decide) h
    · exact lowered (by decide) (by decide) h
  · left
    rcases hg with rfl | rfl | rfl
    · exact digit_head h
    · exact ⟨by simp, by simp⟩
    · exact ⟨by simp, by simp⟩
  · exact .inl (kind_head h)
  · exact .inr ⟨h, c, h2⟩

/-- A token with a text, which begins by an ampersand only if it is a stray one. -/
def HeadOk (t : Tok) : Prop := t.text ≠ [] ∧ (t.text.head? = some '&' → t.token = Tag.UNKNOWN ∧ t.text = ['&'])

theorem modifyLast_all {P : Tok → Prop} {f : Tok → Tok} (hf : ∀ t, P t → P (f t)) : ∀ {acc r : List Tok}, (∀ t ∈ acc, P t) → modifyLast f acc = .ok r →
    ∀ t ∈ r, P t
  | [], _, _, h => by cases h
  | [a], _, ha, h => by
    injection h with h
    subst h
    intro t ht
    simp only [List.mem_singleton] at ht
    subst ht
    exact hf a (ha a (by simp))
  | a :: b :: acc, r, ha, h => by
    rw [modifyLast] at h
    rbind h with q hq
    injection h with h
    subst h
    intro t ht
    rcases List.mem_cons.mp ht with rfl | ht
    · exact ha t (by simp)
    · exact modifyLast_all hf (fun x hx => ha x (by simp [hx])) hq t ht

theorem fused_heads : ∀ p ∈ Spec.fusedPairs, p.1.toList ≠ [] ∧ p.2.toList ≠ [] ∧ p.1.toList.head? ≠ some '&' ∧ p.2.toList.head? ≠ some '&' := by decide +kernel

theorem headOk_low {a : Tok} {w : Str} (h1 : w ≠ []) (h2 : w.head? ≠ some '&') (h : a.text.map lowChar = w) : HeadOk a := by
  subst h
  cases ht : a.text with
  | nil => rw [ht] at h1; exact absurd rfl h1
  | cons c s =>
    refine ⟨by rw [ht]; simp, fun e => ?_⟩
    rw [ht] at e h2
    obtain rfl := Option.some.inj e
    exact absurd rfl h2

theorem lineTokensGo_heads (la : LineAccum) : ∀ (ls : List Flex.Lexeme) {start : Nat} {pre : Int} {acc r : List Tok},
    (∀ l ∈ ls, Spells l.tag l.text) → (∀ t ∈ acc, HeadOk t) → lineTokensGo la ls start pre acc = .ok r → ∀ t ∈ r, HeadOk t
  | [], _, _, _, _, _, ha, h => by
    injection h with h
    subst h
    exact ha
  | l :: ls, start, pre, acc, r, hl, ha, h => by
    rw [lineTokensGo] at h
    rbind h with w hw
    split at h
    · cases h
    · rename_i li ci tli tci
      dsimp only at h
      rbind h with acc2 h2
      have hnew : HeadOk { token := l.tag, line := li, pos := ci, text := l.text } := spells_head (hl l (by simp))
      have h2' : ∀ t ∈ acc2, HeadOk t := by
        split at h2
        · rename_i hn
          rcases unsmash_cases acc { token := l.tag, line := li, pos := ci, text := l.text } hn rfl with ⟨e, _⟩ | ⟨p, hp, a, b, e, _, e1, e2, _⟩
          · rw [e] at h2
            injection h2 with h2
            subst h2
            intro t ht
            rcases List.mem_append.mp ht with ht | ht
            · exact ha t ht
            · simp only [List.mem_singleton] at ht
              subst ht
              exact hnew
          · rw [e] at h2
            injection h2 with h2
            subst h2
            obtain ⟨f1, f2, f3, f4⟩ := fused_heads p hp
            intro t ht
            rcases List.mem_append.mp ht with ht | ht
            · exact ha t ht
            · simp only [List.mem_cons, List.not_mem_nil, or_false] at ht
              rcases ht with rfl | rfl
              · exact headOk_low f1 f3 e1
              · exact headOk_low f2 f4 e2
        · injection h2 with h2
          subst h2
          intro t ht
          rcases List.mem_append.mp ht with ht | ht
          · exact ha t ht
          · simp only [List.mem_singleton] at ht
            subst ht
            exact hnew
      rbind h with w2 hw2
      split at h
      · cases h
      · rbind h with next hnext
        rbind h with acc3 h3
        refine lineTokensGo_heads la ls (fun x hx => hl x (by simp [hx])) (modifyLast_all (P := HeadOk) ?_ h2' h3) h
        exact fun t ht => ht

theorem scan_lineState {st st' : Flex.State} {text : Str} {ls : List Flex.Lexeme} (hst : Spec.LineState st) (h : Flex.scan st text = .ok (ls, st')) :
    Spec.LineState st' := by
  exact (scanHistory_state [text] st st' hst (by simp [scanHistory, h, Res.ok_bind])).1

theorem buildLine_heads {st st' : Flex.State} (hst : Spec.LineState st) {g : Group} {l : LLine} (h : buildLine st g = .ok (l, st')) :
    l = l.initStmts ∧ (∀ t ∈ l.frags, HeadOk t) ∧ Spec.LineState st' := by
  unfold buildLine at h
  rbind h with r hr
  obtain ⟨lab, ht⟩ := initFromLayout_eq st _ r.1 r.2 hr
  unfold LLine.tokenize at ht
  rbind ht with a ha
  rbind ht with b hb
  injection ht with ht
  injection ht with e1 e2
  injection h with h
  injection h with e3 e4
  subst e3 e4
  rw [← e1, ← e2]
  refine ⟨rfl, ?_, scan_lineState hst ha⟩
  exact lineTokensGo_heads _ _ (fun x hx => C51_spelling st _ _ _ hst ha x hx) (by simp) hb

theorem buildLines_heads : ∀ {gs : List Group} {st st' : Flex.State} {lines : List LLine}, Spec.LineState st → buildLines st gs = .ok (lines, st') →
    (∀ l ∈ lines, l = l.initStmts ∧ ∀ t ∈ l.frags, HeadOk t) ∧ Spec.LineState st'
  | [], st, st', lines, hst, h => by
    injection h with h
    injection h with e1 e2
    subst e1 e2
    exact ⟨by simp, hst⟩
  | g :: gs, st, st', lines, hst, h => by
    unfold buildLines at h
    rbind h with r hr
    rbind h with rs hrs
    injection h with h
    injection h with e1 e2
    subst e1 e2
    obtain ⟨h1, h2, h3⟩ := buildLine_heads hst hr
    obtain ⟨k1, k2⟩ := buildLines_heads h3 hrs
    refine ⟨fun l hl => ?_, k2⟩
    rcases List.mem_cons.mp hl with rfl | hl
    · exact ⟨h1, h2⟩
    · exact k1 l hl

namespace FlprFormat
open PF PP

/-- **C82** The lines of a file that was read may all be split, but for those of statements with blank or preprocessor lines between their own,
and for those with a stray ampersand. -/
theorem C82_ready (st st' : Flex.State) (hst : LineState st) (disk : Option (List Str)) (name : Str) (col : Int) (given : FileType) (pf : PFile)
    (h : PFile.make st disk name col given = .ok (pf, st')) : LineState st' ∧ ∀ l ∈ pf.lines,
      (Ready l ↔ (l.hasFortran = true → StatementLayout l.layout) ∧ ∀ t ∈ l.frags, ¬ (t.token = Tag.UNKNOWN ∧ t.text = ['&'])) := by
  rcases C67_make st st' _ name col given pf h with ⟨_, raws, type, gs, _, _, _, h4, _⟩ | ⟨_, rfl, rfl, _⟩
  · obtain ⟨k1, k2⟩ := buildLines_heads hst h4
    refine ⟨k2, fun l hl => ?_⟩
    obtain ⟨e1, e2⟩ := k1 l hl
    constructor
    · intro hr
      refine ⟨hr.layout, fun t ht ⟨_, e⟩ => hr.amp t ht (by rw [e]; rfl)⟩
    · rintro ⟨q1, q2⟩
      exact ⟨e1, q1, fun t ht e => q2 t ht ((e2 t ht).2 e), fun t ht _ => (e2 t ht).1⟩
  · exact ⟨hst, fun l hl => (by cases hl)⟩

/-- **C82** A file that is not converted: if its statements have no blank or preprocessor lines in them and no stray ampersand, the lines that are
written have the statements of the file. -/
theorem C82_scanned_partial (parse : PState → Res POut) (cs : List Char) (o : Options) (ho : Options.start.letters cs = some o) (hf : 'f' ∉ cs) (st st' : Flex.State)
    (hst : LineState st) (tab t : Ind.Table) (name : Str) (disk : Option (List Str)) (n : Int) (out : List Str)
    (h : formatOne parse o st tab name disk = .ok ((n, some out), st', t)) :
    LineState st' ∧ ∃ pf, PFile.make st disk name (if o.col72 then 72 else 0) .unknown = .ok (pf, st') ∧
      ((∀ l ∈ pf.lines, (l.hasFortran = true → StatementLayout l.layout) ∧ ∀ t ∈ l.frags, ¬ (t.token = Tag.UNKNOWN ∧ t.text = ['&'])) →
        ∃ ls, out = fileText ls ∧ ls.flatMap (fun l => statementsOf l.frags) = pf.lines.flatMap (fun l => statementsOf l.frags)) := by
  obtain ⟨pf, h1, _, h3⟩ := C82_statements_partial parse cs o ho st st' tab t name disk n out h
  obtain ⟨k1, k2⟩ := C82_ready st st' hst _ _ _ _ pf h1
  refine ⟨k1, pf, h1, fun hl => h3 (fun r hr l hm => ?_)⟩
  have e : o.fixedToFree = false := by rw [(letters_keep cs _ o ho).2.2.1]; simp [hf, Options.start]
  rw [beforeSplit, e] at hr
  injection hr with hr
  subst hr
  exact (k2 l hm).mpr (hl l hm)

/-- **C82** Which table a file is indented by: a file in fixed format that is not converted by the one that leaves the parts of a program unit where they
are and moves the insides of constructs by four columns, all others by the one of emacs. -/
theorem C82_table (parse : PState → Res POut) (cs : List Char) (o : Options) (ho : Options.start.letters cs = some o) (st st' : Flex.State) (t : Ind.Table)
    (name : Str) (disk : Option (List Str)) (w : Int × Option (List Str)) (h : formatOne parse o st Ind.Table.new name disk = .ok (w, st', t)) :
    t.continued = 5 ∧
    (disk ≠ none → fileInfoType name .unknown = .ok .fixedfmt → 'f' ∉ cs → ∀ g, t.offset g =
      if g ∈ [Tag.PG_EXECUTION_PART, Tag.PG_SPECIFICATION_PART] then 0 else if g ∈ indentedTags then 4 else 0) ∧
    (fileInfoType name .unknown = .ok .freefmt ∨ 'f' ∈ cs → ∀ g, t.offset g =
      if g ∈ [Tag.PG_EXECUTION_PART, Tag.PG_SPECIFICATION_PART, Tag.PG_INTERNAL_SUBPROGRAM, Tag.PG_MODULE_SUBPROGRAM] then 2
      else if g ∈ indentedTags then 3 else 0) := by
  obtain ⟨pf, _, h2, _⟩ := formatOne_ok h
  obtain ⟨_, ⟨t1, a1, a2, a3⟩, ⟨t2, b1, b2, b3⟩⟩ := Ind.C34_tables 4
  have hff : o.fixedToFree = decide ('f' ∈ cs) := by rw [(letters_keep cs _ o ho).2.2.1]; simp [Options.start]
  refine ⟨nextTable_continued h2, fun hd hn hf => ?_, fun hc => ?_⟩
  · have e : (isFixed disk name && !o.fixedToFree) = true := by
      cases disk with
      | none => exact absurd rfl hd
      | some raws => simp [isFixed, hn, hff, hf]
    rw [nextTable, if_pos e, b1] at h2
    injection h2 with h2
    subst h2
    exact b3
  · have e : ¬ (isFixed disk name && !o.fixedToFree) = true := by
      rcases hc with hc | hc
      · simp [isFixed, hc]
      · simp [hff, hc]
    rw [nextTable, if_neg e, a1] at h2
    injection h2 with h2
    subst h2
    exact a3

end FlprFormat
end FLPR
