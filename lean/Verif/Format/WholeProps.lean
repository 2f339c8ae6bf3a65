import Verif.Format.Whole
import Verif.Format.Ex
import Verif.ParsedFile.Props
import Verif.Indent.RereadProps
/-!
# C82: `flpr-format` as a whole
-/

namespace FLPR
namespace FlprFormat
open Spec PF PP

/-! ### Several files -/

/-- A table that only has offsets for the usual constructs. -/
def Usual (t : Ind.Table) : Prop := ∀ g, g ∉ indentedTags → t.offset g = 0

theorem usual_new : Usual Ind.Table.new := fun _ _ => rfl

theorem made (t : Ind.Table) (hu : Usual t) (n e p : Int) : ∃ t', (∀ a, Usual a → ∃ b, a.setAll (Ind.partCalls n e p ++ Ind.beginEndCalls n) = .ok b ∧
    b.offset = t'.offset) ∧ Usual t' := by
  obtain ⟨t', _, h2⟩ := Ind.standard_offset t n e p
  have out : ∀ g, g ∉ indentedTags → g ∉ [Tag.PG_EXECUTION_PART, Tag.PG_SPECIFICATION_PART] ∧
      g ∉ [Tag.PG_INTERNAL_SUBPROGRAM, Tag.PG_MODULE_SUBPROGRAM] := by
    intro g hg
    refine ⟨fun h => hg ?_, fun h => hg ?_⟩ <;>
    · simp only [List.mem_cons, List.not_mem_nil, or_false] at h
      rcases h with rfl | rfl <;> decide
  refine ⟨t', fun a ha => ?_, fun g hg => ?_⟩
  · obtain ⟨b, k1, k2⟩ := Ind.standard_offset a n e p
    refine ⟨b, k1, funext fun g => ?_⟩
    rw [h2, k2]
    by_cases hg : g ∈ indentedTags
    · rw [if_pos hg, if_pos hg]
    · rw [if_neg hg, if_neg hg, ha g hg, hu g hg]
  · rw [h2, if_neg (out g hg).1, if_neg (out g hg).2, if_neg hg, hu g hg]

theorem nextTable_usual (o : Options) (fixed : Bool) (t : Ind.Table) (hu : Usual t) :
    ∃ t', nextTable o fixed t = .ok t' ∧ nextTable o fixed Ind.Table.new = .ok t' ∧ Usual t' := by
  unfold nextTable
  split
  · obtain ⟨t', h1, h2⟩ := made t hu 4 0 4
    obtain ⟨b, k1, k2⟩ := h1 t hu
    obtain ⟨c, l1, l2⟩ := h1 _ usual_new
    refine ⟨⟨t'.offset, 5⟩, ?_, ?_, h2⟩
    · unfold Ind.Table.fixed; rw [k1, ← k2]; rfl
    · unfold Ind.Table.fixed; rw [l1, ← l2]; rfl
  · obtain ⟨t', h1, h2⟩ := made t hu 3 2 2
    obtain ⟨b, k1, k2⟩ := h1 t hu
    obtain ⟨c, l1, l2⟩ := h1 _ usual_new
    refine ⟨⟨t'.offset, 5⟩, ?_, ?_, h2⟩
    · unfold Ind.Table.emacs; rw [k1, ← k2]; rfl
    · unfold Ind.Table.emacs; rw [l1, ← l2]; rfl

end FlprFormat

namespace Spec
open FlprFormat PP

/-- Each file formatted by itself, with the table that `flpr-format` begins with; only the tokenizer is handed on. -/
inductive Each (parse : PState → Res POut) (o : Options) : Flex.State → List (Str × Option (List Str)) → List (Int × Option (List Str)) → Prop where
  | nil (st : Flex.State) : Each parse o st [] []
  | cons {st st' : Flex.State} {t : Ind.Table} {f : Str × Option (List Str)} {fs : List (Str × Option (List Str))}
      {w : Int × Option (List Str)} {ws : List (Int × Option (List Str))} :
      formatOne parse o st Ind.Table.new f.1 f.2 = .ok (w, st', t) → Each parse o st' fs ws → Each parse o st (f :: fs) (w :: ws)

end Spec

namespace FlprFormat
open Spec PF PP

theorem formatOne_usual (parse : PState → Res POut) (o : Options) (st : Flex.State) (t : Ind.Table) (hu : Usual t) (name : Str)
    (disk : Option (List Str)) : formatOne parse o st t name disk = formatOne parse o st Ind.Table.new name disk ∧
      ∀ w st' t', formatOne parse o st t name disk = .ok (w, st', t') → Usual t' := by
  obtain ⟨t1, h1, h2, h3⟩ := nextTable_usual o (isFixed disk name) t hu
  unfold formatOne
  rw [h1, h2]
  refine ⟨rfl, fun w st' t' h => ?_⟩
  rbind h with r hr
  rbind h with r2 hr2
  injection hr2 with hr2
  rbind h with r3 hr3
  injection h with h
  injection h with _ h
  injection h with _ h
  rw [← h, ← hr2]
  exact h3

/-- **C82** The files do not influence each other by the table of indentations, which is one for all. -/
theorem C82_each (parse : PState → Res POut) (o : Options) (st : Flex.State) (files : List (Str × Option (List Str))) (outs : List (Int × Option (List Str))) :
    formatAll parse o st Ind.Table.new files = .ok outs ↔ Each parse o st files outs := by
  suffices key : ∀ (t : Ind.Table), Usual t → (formatAll parse o st t files = .ok outs ↔ Each parse o st files outs) from key _ usual_new
  induction files generalizing st outs with
  | nil =>
    intro t _
    rw [formatAll]
    constructor
    · intro h; injection h with h; subst h; exact .nil st
    · intro h; cases h; rfl
  | cons f fs ih =>
    intro t hu
    obtain ⟨h1, h2⟩ := formatOne_usual parse o st t hu f.1 f.2
    rw [formatAll]
    constructor
    · intro h
      rbind h with r hr
      rbind h with rs hrs
      injection h with h
      subst h
      have hu' := h2 r.1 r.2.1 r.2.2 hr
      rw [h1] at hr
      exact .cons hr ((ih _ _ _ hu').mp hrs)
    · intro h
      cases h with
      | cons k1 k2 =>
        rename_i st' t' w ws
        rw [← h1] at k1
        have hu' := h2 _ _ _ k1
        rw [k1, Res.ok_bind]
        simp only
        rw [(ih _ _ _ hu').mpr k2]
        rfl

/-! ### Options -/

theorem letter_keeps {a o : Options} {c : Char} (h : a.letter c = some o) : o.splitCompound = a.splitCompound ∧ o.writeInplace = a.writeInplace ∧
    o.fixedToFree = (a.fixedToFree || c == 'f') ∧ o.reindent = (a.reindent || c == 'i') := by
  unfold Options.letter at h
  repeat' split at h
  all_goals first
    | (obtain rfl := Option.some.inj h; subst_vars; simp)
    | cases h

theorem letters_keep : ∀ (cs : List Char) (a o : Options), a.letters cs = some o → o.splitCompound = a.splitCompound ∧
    o.writeInplace = a.writeInplace ∧ o.fixedToFree = (a.fixedToFree || decide ('f' ∈ cs)) ∧ o.reindent = (a.reindent || decide ('i' ∈ cs))
  | [], a, o, h => by
    obtain rfl := Option.some.inj h
    simp
  | c :: cs, a, o, h => by
    rw [Options.letters] at h
    obtain ⟨a', h1, h2⟩ := Option.bind_eq_some_iff.mp h
    obtain ⟨k1, k2, k3, k4⟩ := letter_keeps h1
    obtain ⟨l1, l2, l3, l4⟩ := letters_keep cs a' o h2
    refine ⟨l1.trans k1, l2.trans k2, ?_, ?_⟩
    · rw [l3, k3, Bool.eq_iff_iff]; simp [or_assoc, eq_comm (a := 'f')]
    · rw [l4, k4, Bool.eq_iff_iff]; simp [or_assoc, eq_comm (a := 'i')]

/-! ### One file -/

theorem convertLine_frags {l : LLine} {r : LLine × Bool} (h : convertLine l = .ok r) : r.1.frags = l.frags := by
  unfold convertLine at h
  split at h
  · injection h with h; rw [← h]
  · split at h
    · injection h with h; rw [← h]
    · simp only at h
      split at h
      · rbind h with q hq
        rbind h with z hz
        injection h with h; rw [← h]
      · rbind h with z hz
        injection h with h; rw [← h]

theorem convertFile_frags : ∀ {ls : List LLine} {r : List LLine × Bool}, convertFile ls = .ok r → r.1.map (·.frags) = ls.map (·.frags)
  | [], r, h => by
    rw [convertFile] at h
    injection h with h; rw [← h]
  | l :: ls, r, h => by
    rw [convertFile] at h
    rbind h with a ha
    rbind h with b hb
    injection h with h
    rw [← h]
    simp only [List.map_cons, convertLine_frags ha, convertFile_frags hb]

/-- The lines that `split_compound_stmts` is given. -/
def beforeSplit (o : Options) (ls : List LLine) : Res (List LLine × Bool) := if o.fixedToFree then convertFile ls else .ok (ls, false)

theorem beforeSplit_frags {o : Options} {ls : List LLine} {r : List LLine × Bool} (h : beforeSplit o ls = .ok r) : r.1.map (·.frags) = ls.map (·.frags) := by
  unfold beforeSplit at h
  split at h
  · exact convertFile_frags h
  · injection h with h; rw [← h]

theorem filterLines_ok {o : Options} (ho : o.splitCompound = true) {ls : List LLine} {r : List LLine × Bool} (h : filterLines o ls = .ok r) :
    ∃ a c, beforeSplit o ls = .ok a ∧ splitCompound a.1 = .ok (some (r.1, c)) ∧ r.2 = (a.2 || c) := by
  unfold filterLines at h
  rbind h with a ha
  rw [ho] at h
  simp only [Bool.not_true, Bool.and_false, Bool.false_eq_true, if_false, Res.ok_bind, if_true] at h
  rbind h with c hc
  rbind hc with d hd
  cases d with
  | none => cases hc
  | some q =>
    injection hc with hc
    injection h with h
    subst hc h
    exact ⟨a, q.2, ha, hd, by simp⟩

theorem prefetchStmts_lines {pf pf' : PFile} (h : pf.prefetchStmts = .ok pf') : pf'.lines = pf.lines := by
  unfold PFile.prefetchStmts at h
  split at h
  · injection h with h; rw [h]
  · unfold PFile.buildStmts at h
    split at h
    · injection h with h; rw [h]
    · rbind h with a ha
      cases a with
      | none => cases h
      | some ss => injection h with h; rw [← h]

theorem prefetchTree_lines {parse : PState → Res POut} {pf pf' : PFile} (h : pf.prefetchTree parse = .ok pf') : pf'.lines = pf.lines := by
  unfold PFile.prefetchTree at h
  split at h
  · injection h with h; rw [h]
  · unfold PFile.buildTree at h
    split at h
    · injection h with h; rw [h]
    · rbind h with a ha
      unfold PFile.statements at ha
      rbind ha with b hb
      injection ha with ha
      subst ha
      have := prefetchStmts_lines hb
      simp only at h
      split at h
      · injection h with h; rw [← h]; exact this
      · rbind h with q hq
        split at h
        · cases h
        · injection h with h; rw [← h]; exact this

theorem all_frags {cont : Int} {ns : List Int} {l l' : LLine} (h : Spec.IndentedByAll cont ns l l') : l'.frags = l.frags := by
  induction h with
  | nil => rfl
  | cons h _ ih => rw [ih, h.1]

theorem indent_frags {tab : Ind.Table} {stmts : List LLStmt} {t : Option PNode} {ls : List LLine} {r : List LLine × Bool}
    (h : Ind.indent tab stmts t ls = .ok r) : r.1.map (·.frags) = ls.map (·.frags) := by
  cases t with
  | none =>
    rw [Ind.C34_empty] at h
    injection h with h; rw [← h]
  | some t =>
    obtain ⟨h1, _, h3⟩ := Ind.C34_indent tab stmts t ls r h
    apply List.ext_getElem?
    intro j
    rw [List.getElem?_map, List.getElem?_map]
    cases hl : ls[j]? with
    | none =>
      rw [List.getElem?_eq_none_iff] at hl
      rw [List.getElem?_eq_none_iff.mpr (by omega)]
    | some l =>
      obtain ⟨l', k1, k2⟩ := h3 j l hl
      rw [k1]
      simp [all_frags k2]

/-- What happens to a file that has been read. -/
theorem formatFile_ok {parse : PState → Res POut} {o : Options} (ho : o.splitCompound = true) {tab : Ind.Table} {pf : PFile} (hg : pf.good = true)
    {w : Int × Option (List Str)} (h : formatFile parse o tab pf = .ok w) :
    ∃ a c ls p2 d b, beforeSplit o pf.lines = .ok a ∧ splitCompound a.1 = .ok (some (ls, c)) ∧ p2.lines = ls ∧
      (if o.reindent then PFile.indent parse tab p2 else .ok (false, p2)) = .ok d ∧ o.writes (a.2 || c || d.1) = .ok b ∧
      w = (0, if b && !o.writeInplace then some (fileText d.2.lines) else none) := by
  unfold formatFile at h
  rw [if_neg (by rw [hg]; simp)] at h
  rbind h with r hr
  rbind h with p1 h1
  rbind h with p2 h2
  rbind h with d hd
  rbind h with b hb
  injection h with h
  obtain ⟨a, c, k1, k2, k3⟩ := filterLines_ok ho hr
  refine ⟨a, c, r.1, p2, d, b, k1, k2, ?_, hd, by rw [← k3]; exact hb, h.symm⟩
  rw [prefetchTree_lines h2, prefetchStmts_lines h1]

theorem indent_step {parse : PState → Res POut} {o : Options} {tab : Ind.Table} {pf : PFile} {d : Bool × PFile}
    (h : (if o.reindent then PFile.indent parse tab pf else .ok (false, pf)) = .ok d) :
    d.2.lines.map (·.frags) = pf.lines.map (·.frags) ∧ (d.2.lines = pf.lines ∨ ∃ stmts t q, o.reindent = true ∧
      Ind.indent tab stmts (some t) pf.lines = .ok q ∧ d.2.lines = q.1) := by
  split at h
  · rename_i hi
    unfold PFile.indent PFile.parseTree at h
    rbind h with r hr
    rbind hr with p hp
    injection hr with hr
    subst hr
    rbind h with q hq
    injection h with h
    subst h
    have := prefetchTree_lines hp
    simp only at hq ⊢
    rw [this] at hq
    refine ⟨indent_frags hq, ?_⟩
    cases ht : p.tree with
    | none =>
      rw [ht, Ind.C34_empty] at hq
      injection hq with hq
      exact .inl (by rw [← hq])
    | some t =>
      rw [ht] at hq
      exact .inr ⟨_, t, q, hi, hq, rfl⟩
  · injection h with h
    subst h
    exact ⟨rfl, .inl rfl⟩

theorem statements_frags {a b : List LLine} (h : a.map (·.frags) = b.map (·.frags)) :
    a.flatMap (fun l => statementsOf l.frags) = b.flatMap (fun l => statementsOf l.frags) := by
  have e : ∀ ls : List LLine, ls.flatMap (fun l => statementsOf l.frags) = (ls.map (·.frags)).flatMap statementsOf := by
    intro ls; rw [List.flatMap_map]
  rw [e, e, h]

theorem formatOne_ok {parse : PState → Res POut} {o : Options} {st st' : Flex.State} {tab t : Ind.Table} {name : Str} {disk : Option (List Str)}
    {w : Int × Option (List Str)} (h : formatOne parse o st tab name disk = .ok (w, st', t)) :
    ∃ pf, PFile.make st disk name (if o.col72 then 72 else 0) .unknown = .ok (pf, st') ∧ nextTable o (isFixed disk name) tab = .ok t ∧
      formatFile parse o t pf = .ok w := by
  unfold formatOne at h
  rw [C67_readFile] at h
  rbind h with r hr
  rbind hr with p hp
  injection hr with hr
  subst hr
  rbind h with t1 ht
  rbind h with w1 hw
  injection h with h
  injection h with e1 h
  injection h with e2 e3
  subst e1 e2 e3
  exact ⟨p.1, hp, ht, hw⟩

/-- **C82** Whatever is asked for, and whatever the program parser says: the statements of the lines that are written are
those of the lines that were read.  Missing: lines that are not `Ready`; that reading the text again gives these
statements (`C82_reindent_partial`). -/
theorem C82_statements_partial (parse : PState → Res POut) (cs : List Char) (o : Options) (ho : Options.start.letters cs = some o) (st st' : Flex.State)
    (tab t : Ind.Table) (name : Str) (disk : Option (List Str)) (n : Int) (out : List Str)
    (h : formatOne parse o st tab name disk = .ok ((n, some out), st', t)) :
    ∃ pf, PFile.make st disk name (if o.col72 then 72 else 0) .unknown = .ok (pf, st') ∧ pf.good = true ∧
      ((∀ r, beforeSplit o pf.lines = .ok r → ∀ l ∈ r.1, Ready l) →
        ∃ ls, out = fileText ls ∧ ls.flatMap (fun l => statementsOf l.frags) = pf.lines.flatMap (fun l => statementsOf l.frags)) := by
  obtain ⟨pf, h1, h2, h3⟩ := formatOne_ok h
  refine ⟨pf, h1, ?_⟩
  have hg : pf.good = true := by
    by_contra hc
    unfold formatFile at h3
    rw [if_pos (by simpa using hc)] at h3
    cases h3
  refine ⟨hg, fun hr => ?_⟩
  obtain ⟨a, c, ls, p2, d, b, k1, k2, k3, k4, k5, k6⟩ := formatFile_ok (letters_keep cs _ o ho).1 hg h3
  injection k6 with _ k6
  split at k6
  · refine ⟨d.2.lines, Option.some.inj k6, ?_⟩
    rw [statements_frags (indent_step k4).1, k3, (C71_statements_partial _ _ _ (hr a k1) k2).1, statements_frags (beforeSplit_frags k1)]
  · cases k6

/-- **C82** The value returned is always 0, so that the message of an error is never printed; a file that cannot be read gives no output and is
passed over. -/
theorem C82_violation_status (parse : PState → Res POut) (o : Options) (st st' : Flex.State) (tab t : Ind.Table) (name : Str) (disk : Option (List Str))
    (w : Int × Option (List Str)) (h : formatOne parse o st tab name disk = .ok (w, st', t)) : w.1 = 0 ∧ (disk = none → w.2 = none ∧ st' = st) := by
  obtain ⟨pf, h1, h2, h3⟩ := formatOne_ok h
  constructor
  · unfold formatFile at h3
    split at h3
    · injection h3 with h3; rw [← h3]
    · rbind h3 with a ha
      rbind h3 with p1 hp1
      rbind h3 with p2 hp2
      rbind h3 with d hd
      rbind h3 with b hb
      injection h3 with h3; rw [← h3]
  · rintro rfl
    rcases C67_make st st' none name _ _ pf h1 with ⟨_, _, _, _, k, _⟩ | ⟨k1, _, k2, _⟩
    · cases k
    · unfold formatFile at h3
      rw [if_pos k1] at h3
      injection h3 with h3
      exact ⟨by rw [← h3], k2⟩

/-- **C82** A file that was read is written exactly if `o` was the last of the letters `o` and `q`; whether it was changed makes no difference. -/
theorem C82_written (parse : PState → Res POut) (cs : List Char) (o : Options) (ho : Options.start.letters cs = some o) (hc : 'o' ∈ cs ∨ 'q' ∈ cs)
    (tab : Ind.Table) (pf : PFile) (hg : pf.good = true) (w : Int × Option (List Str)) (h : formatFile parse o tab pf = .ok w) :
    w.2.isSome = true ↔ (cs.filter (fun c => c == 'o' || c == 'q')).getLast? = some 'o' := by
  obtain ⟨l1, l2, _⟩ := letters_keep cs _ o ho
  obtain ⟨a, c, ls, p2, d, b, k1, k2, k3, k4, k5, k6⟩ := formatFile_ok l1 hg h
  obtain ⟨b', e1, e2⟩ := C71_output_when cs o ho hc (a.2 || c || d.1)
  rw [k5] at e1
  injection e1 with e1
  subst e1
  have hw : o.writeInplace = false := l2
  have e3 : w.2.isSome = true ↔ b = true := by
    rw [k6, hw]
    cases b <;> simp
  rw [e3, e2]
  constructor
  · rintro (h | ⟨_, h⟩)
    · exact h
    · have ho : 'o' ∈ cs := hc.resolve_right h
      have hne : cs.filter (fun c => c == 'o' || c == 'q') ≠ [] := by
        intro he
        have : 'o' ∈ cs.filter (fun c => c == 'o' || c == 'q') := List.mem_filter.mpr ⟨ho, by decide⟩
        rw [he] at this
        cases this
      rw [List.getLast?_eq_some_getLast hne]
      have hm := List.mem_filter.mp (List.getLast_mem hne)
      simp only [Bool.or_eq_true, beq_iff_eq] at hm
      rcases hm.2 with e | e
      · rw [e]
      · rw [e] at hm
        exact absurd hm.1 h
  · exact .inl

/-- **C82** Without `o` and `q` no file that was read is formatted: an option without a value is looked at. -/
theorem C82_violation_options (parse : PState → Res POut) (cs : List Char) (o : Options) (ho : Options.start.letters cs = some o) (hc : 'o' ∉ cs ∧ 'q' ∉ cs)
    (tab : Ind.Table) (pf : PFile) (hg : pf.good = true) (w : Int × Option (List Str)) : formatFile parse o tab pf ≠ .ok w := by
  intro h
  obtain ⟨a, c, ls, p2, d, b, k1, k2, k3, k4, k5, k6⟩ := formatFile_ok (letters_keep cs _ o ho).1 hg h
  have h2 := (letters_output cs _ o ho).2
  have he : cs.filter (fun c => c == 'o' || c == 'q') = [] := by
    rw [List.filter_eq_nil_iff]
    intro c hm
    simp only [Bool.or_eq_true, beq_iff_eq, not_or]
    exact ⟨fun e => hc.1 (e ▸ hm), fun e => hc.2 (e ▸ hm)⟩
  rw [he] at h2
  rw [Options.writes, h2] at k5
  cases k5

theorem free_kept {parse : PState → Res POut} {cs : List Char} {o : Options} (ho : Options.start.letters cs = some o) (hf : 'f' ∉ cs)
    {tab : Ind.Table} {pf : PFile} (hg : pf.good = true) (hr : ∀ l ∈ pf.lines, Ready l) (hk : ∀ l ∈ pf.lines, ¬ Changes l) {w : Int × Option (List Str)}
    (h : formatFile parse o tab pf = .ok w) : ∃ p2 d b, p2.lines = pf.lines ∧
      (if o.reindent then PFile.indent parse tab p2 else .ok (false, p2)) = .ok d ∧ o.writes d.1 = .ok b ∧
      w = (0, if b then some (fileText d.2.lines) else none) := by
  obtain ⟨l1, l2, l3, _⟩ := letters_keep cs _ o ho
  obtain ⟨a, c, ls, p2, d, b, k1, k2, k3, k4, k5, k6⟩ := formatFile_ok l1 hg h
  have e : o.fixedToFree = false := by rw [l3]; simp [hf, Options.start]
  rw [beforeSplit, e] at k1
  injection k1 with k1
  subst k1
  have hb : c = false := by
    obtain ⟨_, _, _, q⟩ := C71_split_partial _ _ _ hr k2
    cases c with
    | false => rfl
    | true =>
      obtain ⟨l, hl, hc⟩ := q.mp rfl
      exact absurd hc (hk l hl)
  subst hb
  have hls := (C71_statements_partial _ _ _ hr k2).2.2 rfl
  have hw : o.writeInplace = false := l2
  refine ⟨p2, d, b, by rw [k3, hls], k4, by simpa using k5, by rw [k6, hw]; simp⟩

/-- **C82** A free-format file without compound or empty statements is written as it was read. -/
theorem C82_same (parse : PState → Res POut) (cs : List Char) (o : Options) (ho : Options.start.letters cs = some o) (hf : 'f' ∉ cs) (hi : 'i' ∉ cs)
    (st st' : Flex.State) (raws : List Str) (name : Str) (pf : PFile) (hm : PFile.make st (some raws) name (if o.col72 then 72 else 0) .unknown = .ok (pf, st'))
    (hfree : fileInfoType name .unknown = .ok .freefmt) (hg : pf.good = true) (hr : ∀ l ∈ pf.lines, Ready l) (hk : ∀ l ∈ pf.lines, ¬ Changes l)
    (tab : Ind.Table) (out : List Str) (h : formatFile parse o tab pf = .ok (0, some out)) : out = raws := by
  obtain ⟨p2, d, b, k1, k2, k3, k4⟩ := free_kept ho hf hg hr hk h
  have e : o.reindent = false := by rw [(letters_keep cs _ o ho).2.2.2]; simp [hi, Options.start]
  rw [e] at k2
  injection k2 with k2
  subst k2
  injection k4 with _ k4
  split at k4
  · rw [Option.some.inj k4]
    simp only [k1]
    exact C67_text _ _ _ _ _ _ pf hm hg hfree
  · cases k4

theorem nextTable_continued {o : Options} {fixed : Bool} {tab t : Ind.Table} (h : nextTable o fixed tab = .ok t) : t.continued = 5 := by
  unfold nextTable at h
  split at h
  · rbind h with a ha
    injection h with h; rw [← h]
  · unfold Ind.Table.emacs at h
    rbind h with a ha
    injection h with h; rw [← h]

/-- **C82** A free-format file without compound or empty statements that is indented: what is written, read again under the same name, has the
statements of the file.  Missing: lines that are split, which are written anew; fixed format. -/
theorem C82_reindent_partial (parse : PState → Res POut) (cs : List Char) (o : Options) (ho : Options.start.letters cs = some o) (hf : 'f' ∉ cs)
    (st st' : Flex.State) (tab t : Ind.Table) (raws : List Str) (ha : ∀ raw ∈ raws, AsciiStr raw) (name : Str)
    (hfree : fileInfoType name .unknown = .ok .freefmt) (n : Int) (out : List Str)
    (h : formatOne parse o st tab name (some raws) = .ok ((n, some out), st', t)) :
    ∃ pf, PFile.make st (some raws) name (if o.col72 then 72 else 0) .unknown = .ok (pf, st') ∧ pf.good = true ∧
      ((∀ l ∈ pf.lines, Ready l ∧ ¬ Changes l ∧ SteadyLayout l.layout) →
        ∃ pf', PFile.make st (some out) name (if o.col72 then 72 else 0) .unknown = .ok (pf', st') ∧ pf'.good = true ∧
          makeStmts pf'.lines = makeStmts pf.lines) := by
  obtain ⟨pf, h1, h2, h3⟩ := formatOne_ok h
  refine ⟨pf, h1, ?_⟩
  have hg : pf.good = true := by
    by_contra hc
    unfold formatFile at h3
    rw [if_pos (by simpa using hc)] at h3
    cases h3
  refine ⟨hg, fun hr => ?_⟩
  obtain ⟨p2, d, b, k1, k2, k3, k4⟩ := free_kept ho hf hg (fun l hl => (hr l hl).1) (fun l hl => (hr l hl).2.1) h3
  injection k4 with _ k4
  split at k4
  · have hout := Option.some.inj k4
    have htext := C67_text _ _ _ _ _ _ pf h1 hg hfree
    rcases (indent_step k2).2 with e | ⟨stmts, tr, q, _, e1, e2⟩
    · rw [e, k1, htext] at hout
      subst hout
      exact ⟨pf, h1, hg, rfl⟩
    · rw [k1] at e1
      rcases C67_make st st' _ name _ _ pf h1 with ⟨_, raws', type, gs, m1, m2, m3, m4, m5⟩ | ⟨m1, _⟩
      · injection m1 with m1
        subst m1
        rw [hfree] at m2
        injection m2 with m2
        subst m2
        obtain ⟨gs', lines', r1, r2, _, r4⟩ := C74_reread_partial raws ha gs m3 st st' pf.lines m4 (fun l hl => (hr l hl).2.2) t
          (by rw [nextTable_continued h2]; omega) stmts tr q e1
        rw [← e2, ← hout] at r1
        refine ⟨{ lines := lines', bad := false }, ?_, rfl, r4⟩
        unfold PFile.make readAndScan
        simp only [hfree, Res.ok_bind]
        have r1' : scanAs .freefmt (if o.col72 then 72 else 0) out = .ok (some gs') := r1
        rw [r1']
        simp only [Res.ok_bind]
        rw [r2]
        simp [Res.ok_bind, PFile.load]
      · rw [hg] at m1
        cases m1
  · cases k4

/-- A file that has been read and that the filters leave alone. -/
theorem filterLines_same {cs : List Char} {o : Options} (ho : Options.start.letters cs = some o) (hf : 'f' ∉ cs) {ls : List LLine}
    (hr : ∀ l ∈ ls, Ready l ∧ Roomy l ∧ ¬ Changes l) : filterLines o ls = .ok (ls, false) := by
  obtain ⟨l1, l2, l3, _⟩ := letters_keep cs _ o ho
  have e : o.fixedToFree = false := by rw [l3]; simp [hf, Options.start]
  have e1 : o.splitCompound = true := l1
  obtain ⟨out, b, h⟩ := C71_split_returns ls (fun l hl => (hr l hl).1) (fun l hl => (hr l hl).2.1)
  have hb : b = false := by
    obtain ⟨_, _, _, q⟩ := C71_split_partial _ _ _ (fun l hl => (hr l hl).1) h
    cases b with
    | false => rfl
    | true =>
      obtain ⟨l, hl, hc⟩ := q.mp rfl
      exact absurd hc (hr l hl).2.2
  subst hb
  have hls := (C71_statements_partial _ _ _ (fun l hl => (hr l hl).1) h).2.2 rfl
  subst hls
  unfold filterLines
  rw [e, e1]
  simp [Res.ok_bind, h]

theorem asked_read {st st' : Flex.State} {disk : Option (List Str)} {name : Str} {col : Int} {given : FileType} {pf : PFile}
    (h : PFile.make st disk name col given = .ok (pf, st')) (hg : pf.good = true) (t : Option PNode) :
    makeStmts pf.lines = .ok (some (stmtsOf pf.lines)) ∧ Asked pf.lines t false pf := by
  rcases C67_make st st' _ name col given pf h with ⟨_, raws', type, gs, h1, h2, h3, h4, h5⟩ | ⟨h1, _⟩
  · refine ⟨scanAs_stmts h3 h4, ?_⟩
    rw [h5]
    exact ⟨rfl, rfl, fun h => (by cases h), rfl, fun _ => rfl, fun h => (by cases h)⟩
  · rw [hg] at h1
    cases h1

/-- **C82** A file without compound or empty statements that the program parser accepts is formatted, without any failure. -/
theorem C82_returns (x : SP.Exts) (hx : x.Forward) (hn : NeedToken x) (parse : PState → Res POut) (hp : IsParser x parse) (cs : List Char) (o : Options)
    (ho : Options.start.letters cs = some o) (hf : 'f' ∉ cs) (hi : 'i' ∉ cs) (hc : 'o' ∈ cs ∨ 'q' ∈ cs) (st st' : Flex.State) (disk : Option (List Str))
    (name : Str) (pf : PFile) (hm : PFile.make st disk name (if o.col72 then 72 else 0) .unknown = .ok (pf, st')) (hg : pf.good = true)
    (hr : ∀ l ∈ pf.lines, Ready l ∧ Roomy l ∧ ¬ Changes l) (t : Option PNode) (ht : TreeIs x pf.lines t) (tab : Ind.Table) :
    formatFile parse o tab pf = .ok (0, if (cs.filter (fun c => c == 'o' || c == 'q')).getLast? = some 'o' then some (fileText pf.lines) else none) := by
  obtain ⟨m1, m2⟩ := asked_read hm hg t
  obtain ⟨p1, a1, a2, a3, a4⟩ := asked_stmts m1 m2
  obtain ⟨p2, b1, b2⟩ := asked_tree hx hn hp m1 ht a4
  obtain ⟨_, l2, _, l4⟩ := letters_keep cs _ o ho
  have e : o.reindent = false := by rw [l4]; simp [hi, Options.start]
  have hw : o.writeInplace = false := l2
  obtain ⟨b, e1, e2⟩ := C71_output_when cs o ho hc false
  have key : formatFile parse o tab pf = .ok (0, if b then some (fileText pf.lines) else none) := by
    unfold formatFile
    rw [if_neg (by rw [hg]; simp), filterLines_same ho hf hr]
    simp only [Res.ok_bind]
    rw [a1]
    simp only [Res.ok_bind]
    rw [b1]
    simp only [Res.ok_bind, e, Bool.false_eq_true, if_false, Bool.or_self]
    rw [e1]
    simp [Res.ok_bind, hw, b2.lines]
  rw [key]
  simp only [Bool.false_eq_true, false_and, or_false] at e2
  simp only [e2]

/-- **C82** A file that the program parser does not accept ends the run by a failed assertion, whatever was asked for; nothing is written. -/
theorem C82_violation_parse (x : SP.Exts) (hx : x.Forward) (hn : NeedToken x) (parse : PState → Res POut) (hp : IsParser x parse) (cs : List Char) (o : Options)
    (ho : Options.start.letters cs = some o) (hf : 'f' ∉ cs) (st st' : Flex.State) (disk : Option (List Str))
    (name : Str) (pf : PFile) (hm : PFile.make st disk name (if o.col72 then 72 else 0) .unknown = .ok (pf, st')) (hg : pf.good = true)
    (hr : ∀ l ∈ pf.lines, Ready l ∧ Roomy l ∧ ¬ Changes l) (hne : stmtsOf pf.lines ≠ []) (out : POut)
    (hout : PReturns x .program (stateOf pf.lines (stmtsOf pf.lines)) (.ok out)) (hk : out.ok = false) (tab : Ind.Table) :
    formatFile parse o tab pf = .error .assertion := by
  obtain ⟨m1, m2⟩ := asked_read hm hg none
  obtain ⟨p1, a1, a2, a3, a4⟩ := asked_stmts m1 m2
  have hpo : parse (stateOf pf.lines (stmtsOf pf.lines)) = .ok out := (hp _ (stateOf_full _ _)).unique hout
  have key : p1.prefetchTree parse = .error .assertion := by
    unfold PFile.prefetchTree PFile.buildTree PFile.statements PFile.prefetchStmts
    rw [a4.treeOk, a4.bad, a2]
    simp only [Res.ok_bind, Bool.false_eq_true, if_false, if_true]
    rw [a3, if_neg hne, a4.lines, hpo]
    simp only [Res.ok_bind, (C39_tree_partial x hx hn .program _ (stateOf_full _ _) out hout).2.2.1 hk]
  unfold formatFile
  rw [if_neg (by rw [hg]; simp), filterLines_same ho hf hr]
  simp only [Res.ok_bind]
  rw [a1]
  simp only [Res.ok_bind]
  rw [key]
  rfl

end FlprFormat
end FLPR
