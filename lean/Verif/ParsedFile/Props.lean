import Verif.ParsedFile.Lemmas
import Verif.LogicalFile.ScanProps
import Verif.LogicalFile.ConvertFile
import Verif.Indent.Props
/-!
# C67: a `Parsed_File` answers by what was read (src/flpr/Parsed_File.hh, src/flpr/Logical_File.cc)
-/

namespace FLPR
namespace PF
open PP Spec
open SP (Exts)

/-- There is a program parser, and it is determined. -/
theorem C67_parser (x : Exts) (hx : x.Forward) (hn : NeedToken x) :
    ∃ parse, IsParser x parse ∧ ∀ parse', IsParser x parse' → ∀ s, Full s → parse' s = parse s := by
  classical
  refine ⟨fun s => if h : Full s then (C59_terminates_partial x hx hn .program s h).choose else .error .ub, ?_, ?_⟩
  · intro s hs
    simp only [dif_pos hs]
    exact (C59_terminates_partial x hx hn .program s hs).choose_spec.1
  · intro parse' hp s hs
    simp only [dif_pos hs]
    exact (C59_terminates_partial x hx hn .program s hs).choose_spec.2 _ (hp s hs)

/-! ### Reading -/

/-- C67: after construction, `operator bool` tells whether the file could be opened, its format is known, and
all of its lines could be read; then the lines are those that the scan makes.  Otherwise the file is empty. -/
theorem C67_make (st st' : Flex.State) (disk : Option (List Str)) (name : Str) (lastCol : Int) (given : FileType) (pf : PFile)
    (h : PFile.make st disk name lastCol given = .ok (pf, st')) :
    (pf.good = true ∧ ∃ raws type gs, disk = some raws ∧ fileInfoType name given = .ok type ∧
        scanAs type lastCol raws = .ok (some gs) ∧ buildLines st gs = .ok (pf.lines, st') ∧ pf = { lines := pf.lines, bad := false }) ∨
    (pf.good = false ∧ pf = {} ∧ st' = st ∧ (disk = none ∨ ∃ raws type, disk = some raws ∧ fileInfoType name given = .ok type ∧
        scanAs type lastCol raws = .ok none)) := by
  unfold PFile.make at h
  rbind h with r hr
  injection h with h
  injection h with h1 h2
  subst h1 h2
  unfold readAndScan at hr
  cases disk with
  | none =>
    injection hr with hr
    subst hr
    exact .inr ⟨rfl, rfl, rfl, .inl rfl⟩
  | some raws =>
    simp only at hr
    rbind hr with type ht
    rbind hr with o ho
    cases o with
    | none =>
      injection hr with hr
      subst hr
      exact .inr ⟨rfl, rfl, rfl, .inr ⟨raws, type, rfl, ht, ho⟩⟩
    | some gs =>
      simp only at hr
      rbind hr with q hq
      injection hr with hr
      subst hr
      refine .inl ⟨rfl, raws, type, gs, rfl, ht, ho, ?_, ?_⟩
      · simpa [PFile.load] using hq
      · simp [PFile.load]

theorem scanAs_stmts {st st' : Flex.State} {type : FileType} {lastCol : Int} {raws : List Str} {gs : List Group} {lines : List LLine}
    (h : scanAs type lastCol raws = .ok (some gs)) (hb : buildLines st gs = .ok (lines, st')) :
    makeStmts lines = .ok (some (stmtsOf lines)) := by
  cases type with
  | unknown => cases h
  | fixedfmt => exact C19_scanned_fixed raws lastCol gs st st' lines h hb
  | freefmt => exact C19_scanned_free raws gs st st' lines h hb

/-- C67: the lines of a free-format file that has been read are the text of the file. -/
theorem C67_text (st st' : Flex.State) (raws : List Str) (name : Str) (lastCol : Int) (given : FileType) (pf : PFile)
    (h : PFile.make st (some raws) name lastCol given = .ok (pf, st')) (hg : pf.good = true)
    (hf : fileInfoType name given = .ok .freefmt) : fileText pf.lines = raws := by
  rcases C67_make st st' _ name lastCol given pf h with ⟨_, raws', type, gs, h1, h2, h3, h4, _⟩ | ⟨h1, _⟩
  · injection h1 with h1
    subst h1
    rw [hf] at h2
    injection h2 with h2
    subst h2
    have h5 := buildLines_layout h4
    have h6 := (C06_scan_free raws gs h3).1
    rw [fileText, ← h6]
    have : pf.lines.flatMap (fun l => l.layout.map FileLine.print) = ((pf.lines.map (·.layout)).flatten).map FileLine.print := by
      simp [List.flatMap, Function.comp_def, List.map_flatten]
    rw [this, h5]
    simp [List.flatMap, List.map_flatten]
  · rw [hg] at h1
    cases h1

/-- C67: `read_file` on a file that has not been read successfully does what the constructor does; but see
`C67_violation_result`. -/
theorem C67_readFile (st : Flex.State) (disk : Option (List Str)) (name : Str) (lastCol : Int) (given : FileType) :
    PFile.readFile st {} disk name lastCol given =
      (do
        let r ← PFile.make st disk name lastCol given
        .ok (!r.1.good, r.1, r.2)) := by
  unfold PFile.readFile PFile.make
  simp only [PFile.good, Bool.not_not]
  rw [if_neg (by simp)]
  cases readAndScan st disk name lastCol given with
  | error e => rfl
  | ok r => rfl

/-- C67 fails for the result of `read_file`: it is always the opposite of what `operator bool` then says. -/
theorem C67_violation_result (st st' : Flex.State) (pf pf' : PFile) (disk : Option (List Str)) (name : Str) (lastCol : Int) (given : FileType)
    (b : Bool) (h : PFile.readFile st pf disk name lastCol given = .ok (b, pf', st')) : b = !pf'.good := by
  unfold PFile.readFile at h
  split at h
  · cases h
  · rbind h with r hr
    injection h with h
    injection h with h1 h
    injection h with h2 h3
    subst h1 h2
    simp [PFile.good]

/-- C67: a file may be read after one that could not be read. -/
theorem C67_retry (st st' st'' : Flex.State) (d1 d2 : Option (List Str)) (n1 n2 : Str) (c1 c2 : Int) (t1 t2 : FileType) (pf : PFile)
    (h1 : PFile.make st d1 n1 c1 t1 = .ok (pf, st')) (hb : pf.good = false) :
    PFile.readFile st'' pf d2 n2 c2 t2 = PFile.readFile st'' {} d2 n2 c2 t2 := by
  rcases C67_make st st' _ _ _ _ pf h1 with ⟨h, _⟩ | ⟨_, rfl, _⟩
  · rw [hb] at h
    cases h
  · rfl

/-! ### Asking -/

/-- The tree of the file with the lines `ls` is `t`. -/
def TreeIs (x : Exts) (ls : List LLine) (t : Option PNode) : Prop :=
  (stmtsOf ls = [] ∧ t = none) ∨
    (stmtsOf ls ≠ [] ∧ ∃ o, PReturns x .program (stateOf ls (stmtsOf ls)) (.ok o) ∧ o.ok = true ∧ o.tree = t)

/-- The states of a file that has been read and asked. -/
structure Asked (ls : List LLine) (t : Option PNode) (b : Bool) (pf : PFile) : Prop where
  lines : pf.lines = ls
  bad : pf.bad = false
  stmts : pf.stmtsOk = true → pf.stmts = stmtsOf ls
  treeOk : pf.treeOk = b
  none : b = false → pf.hooks = fun _ => none
  tree : b = true → pf.tree = t ∧ pf.stmtsOk = true ∧ ∀ i, pf.hooks i = lastLeaf t i

theorem asked_stmts {ls : List LLine} {t : Option PNode} {b : Bool} {pf : PFile} (hm : makeStmts ls = .ok (some (stmtsOf ls)))
    (h : Asked ls t b pf) : ∃ pf', pf.prefetchStmts = .ok pf' ∧ pf'.stmtsOk = true ∧ pf'.stmts = stmtsOf ls ∧ Asked ls t b pf' := by
  unfold PFile.prefetchStmts
  by_cases hk : pf.stmtsOk = true
  · rw [if_pos hk]
    exact ⟨pf, rfl, hk, h.stmts hk, h⟩
  · rw [if_neg hk, PFile.buildStmts, h.bad, h.lines, hm]
    refine ⟨_, rfl, rfl, rfl, ⟨rfl, rfl, fun _ => rfl, h.treeOk, fun _ => rfl, fun hb => ?_⟩⟩
    exact absurd (h.tree hb).2.1 hk

theorem asked_tree {x : Exts} (hx : x.Forward) (hn : NeedToken x) {parse : PState → Res POut} (hp : IsParser x parse) {ls : List LLine}
    {t : Option PNode} {b : Bool} {pf : PFile} (hm : makeStmts ls = .ok (some (stmtsOf ls))) (ht : TreeIs x ls t) (h : Asked ls t b pf) :
    ∃ pf', pf.prefetchTree parse = .ok pf' ∧ Asked ls t true pf' := by
  unfold PFile.prefetchTree
  cases b with
  | true =>
    rw [if_pos h.treeOk]
    exact ⟨pf, rfl, h⟩
  | false =>
    rw [if_neg (by rw [h.treeOk]; simp), PFile.buildTree, h.bad]
    obtain ⟨pf', h1, h2, h3, h4⟩ := asked_stmts hm h
    unfold PFile.statements
    rw [h1]
    simp only [Res.ok_bind, Bool.false_eq_true, if_false]
    rw [h3]
    rcases ht with ⟨e1, rfl⟩ | ⟨e1, o, e2, e3, e4⟩
    · rw [if_pos e1]
      refine ⟨_, rfl, ⟨h4.lines, h4.bad, fun _ => rfl, rfl, fun hh => (by cases hh), fun _ => ⟨rfl, h2, fun i => ?_⟩⟩⟩
      show pf'.hooks i = _
      rw [h4.none rfl]
      rfl
    · rw [if_neg e1, h4.lines]
      have : parse (stateOf ls (stmtsOf ls)) = .ok o := by
        obtain ⟨res, _, hu⟩ := C59_terminates_partial x hx hn .program _ (stateOf_full ls (stmtsOf ls))
        rw [hu _ (hp _ (stateOf_full ls (stmtsOf ls))), ← hu _ e2]
      rw [this]
      simp only [Res.ok_bind]
      obtain ⟨t', ht', _⟩ := C39_program_partial x hx hn _ (stateOf_full ls (stmtsOf ls)) o e2 e3
      rw [ht'] at e4
      subst e4
      rw [ht']
      refine ⟨_, rfl, ⟨rfl, ?_, fun _ => rfl, rfl, fun hh => (by cases hh), fun _ => ⟨rfl, h2, fun i => ?_⟩⟩⟩
      · simp [e3, h4.bad]
      · show link [] t' pf'.hooks i = _
        rw [h4.none rfl]
        exact link_at t' i

theorem asked_all {x : Exts} (hx : x.Forward) (hn : NeedToken x) {parse : PState → Res POut} (hp : IsParser x parse) {ls : List LLine}
    {t : Option PNode} (hm : makeStmts ls = .ok (some (stmtsOf ls))) (ht : TreeIs x ls t) : ∀ (qs : List Op) (b : Bool) (pf : PFile),
    Asked ls t b pf → pf.askAll parse qs = .ok (answers (stmtsOf ls) t b qs)
  | [], b, pf, h => rfl
  | .good :: qs, b, pf, h => by
    simp only [PFile.askAll, PFile.ask, Res.ok_bind, asked_all hx hn hp hm ht qs b pf h, answers, PFile.good, h.bad]
    rfl
  | .preStmts :: qs, b, pf, h => by
    obtain ⟨pf', h1, h2, h3, h4⟩ := asked_stmts hm h
    simp only [PFile.askAll, PFile.ask, h1, Res.ok_bind, asked_all hx hn hp hm ht qs b pf' h4, answers, h2]
  | .stmts :: qs, b, pf, h => by
    obtain ⟨pf', h1, h2, h3, h4⟩ := asked_stmts hm h
    simp only [PFile.askAll, PFile.ask, PFile.statements, h1, Res.ok_bind, asked_all hx hn hp hm ht qs b pf' h4, answers, h3]
  | .preTree :: qs, b, pf, h => by
    obtain ⟨pf', h1, h2⟩ := asked_tree hx hn hp hm ht h
    simp only [PFile.askAll, PFile.ask, h1, Res.ok_bind, asked_all hx hn hp hm ht qs true pf' h2, answers, h2.treeOk]
  | .tree :: qs, b, pf, h => by
    obtain ⟨pf', h1, h2⟩ := asked_tree hx hn hp hm ht h
    simp only [PFile.askAll, PFile.ask, PFile.parseTree, h1, Res.ok_bind, asked_all hx hn hp hm ht qs true pf' h2, answers, (h2.tree rfl).1]
  | .node i :: qs, b, pf, h => by
    simp only [PFile.askAll, PFile.ask, Res.ok_bind, asked_all hx hn hp hm ht qs b pf h, answers, PFile.nodeCursor]
    cases b with
    | false => rw [h.none rfl]; rfl
    | true => rw [(h.tree rfl).2.2 i]; rfl

/-- C67: a file that has been read and that the program parser accepts answers all questions, in whatever order
and however often they are asked, by its statements and its tree; only the node of a statement is not known
before the tree has been asked for.  Missing: files that the parser does not accept (`C67_violation_parse`). -/
theorem C67_asks_partial (x : Exts) (hx : x.Forward) (hn : NeedToken x) (parse : PState → Res POut) (hp : IsParser x parse)
    (st st' : Flex.State) (disk : Option (List Str)) (name : Str) (lastCol : Int) (given : FileType) (pf : PFile)
    (h : PFile.make st disk name lastCol given = .ok (pf, st')) (hg : pf.good = true) (t : Option PNode) (ht : TreeIs x pf.lines t)
    (qs : List Op) : pf.askAll parse qs = .ok (answers (stmtsOf pf.lines) t false qs) := by
  rcases C67_make st st' _ name lastCol given pf h with ⟨_, raws', type, gs, h1, h2, h3, h4, h5⟩ | ⟨h1, _⟩
  · refine asked_all hx hn hp (scanAs_stmts h3 h4) ht qs false pf ?_
    rw [h5]
    exact ⟨rfl, rfl, fun h => (by cases h), rfl, fun _ => rfl, fun h => (by cases h)⟩
  · rw [hg] at h1
    cases h1

/-- C67: the tree is determined by the lines. -/
theorem C67_tree_unique (x : Exts) (ls : List LLine) (t t' : Option PNode) (h : TreeIs x ls t) (h' : TreeIs x ls t') : t = t' := by
  rcases h with ⟨h1, h2⟩ | ⟨h1, o, h2, _, h3⟩ <;> rcases h' with ⟨k1, k2⟩ | ⟨k1, o', k2, _, k3⟩
  · rw [h2, k2]
  · exact absurd h1 k1
  · exact absurd k1 h1
  · have := PReturns.unique h2 k2
    injection this with this
    rw [← h3, ← k3, this]

/-- C67: the node of a statement is a leaf for this very statement; it is the last one in the tree, and there is
one unless the statement is not in the tree at all. -/
theorem C67_node (x : Exts) (hx : x.Forward) (hn : NeedToken x) (ls : List LLine) (t : PNode) (ht : TreeIs x ls (some t)) (i : Nat) :
    (∀ p, lastLeaf (some t) i = some p → ∃ n, nodeAt t p = some n ∧ n.stmt = some i ∧ n.kids = []) ∧
      (lastLeaf (some t) i = none ↔ i ∉ leavesOf t) := by
  rcases ht with ⟨_, h⟩ | ⟨_, o, h1, h2, h3⟩
  · cases h
  · have hok := ((C39_tree_partial x hx hn .program _ (stateOf_full ls (stmtsOf ls)) o h1).2.2.2 t h3).1
    rw [lastLeaf_list]
    refine ⟨fun p hp => ?_, ?_⟩
    · simp only [Option.map_eq_some_iff] at hp
      obtain ⟨y, h4, rfl⟩ := hp
      have h5 := List.mem_of_getLast? h4
      simp only [List.mem_filter, decide_eq_true_eq] at h5
      obtain ⟨n, e1, e2, e3⟩ := leafList_node t y h5.1
      exact ⟨n, e1, by rw [e2, h5.2], e3⟩
    · rw [← leafList_stmts t hok]
      simp only [Option.map_eq_none_iff, List.getLast?_eq_none_iff, List.filter_eq_nil_iff, decide_eq_true_eq, List.mem_map, not_exists, not_and]

/-- C67: if no parser gave up, every statement has a node. -/
theorem C67_all_nodes (x : Exts) (hx : x.Forward) (hn : NeedToken x) (ls : List LLine) (o : POut) (t : PNode)
    (h : PReturns x .program (stateOf ls (stmtsOf ls)) (.ok o)) (ho : o.ok = true) (ht : o.tree = some t) (ha : o.s.abandoned = 0)
    (hne : stmtsOf ls ≠ []) (i : Nat) (hi : i < (stmtsOf ls).length) :
    ∃ p n, lastLeaf (some t) i = some p ∧ nodeAt t p = some n ∧ n.stmt = some i ∧ n.kids = [] := by
  obtain ⟨h1, h2⟩ := C67_node x hx hn ls t (.inr ⟨hne, o, h, ho, ht⟩) i
  cases hl : lastLeaf (some t) i with
  | some p =>
    obtain ⟨n, h3⟩ := h1 p hl
    exact ⟨p, n, rfl, h3⟩
  | none =>
    exfalso
    refine h2.mp hl ?_
    obtain ⟨t', e1, _, _, e2⟩ := C39_program_partial x hx hn _ (stateOf_full ls (stmtsOf ls)) o h ho
    rw [ht] at e1
    injection e1 with e1
    subst e1
    have := e2 ha
    rw [← mem_squash, this, List.mem_range'_1]
    simp [stateOf]
    exact hi

/-! ### Files that could not be read, and indenting -/

/-- C67: a file that could not be read has no statements and no tree, and `indent` does nothing. -/
theorem C67_unread (parse : PState → Res POut) (tab : Ind.Table) (st st' : Flex.State) (disk : Option (List Str)) (name : Str) (lastCol : Int)
    (given : FileType) (pf : PFile) (h : PFile.make st disk name lastCol given = .ok (pf, st')) (hg : pf.good = false) :
    pf.statements = .ok ([], pf) ∧ pf.parseTree parse = .ok (none, pf) ∧ pf.indent parse tab = .ok (false, pf) := by
  rcases C67_make st st' _ name lastCol given pf h with ⟨h1, _⟩ | ⟨_, rfl, _⟩
  · rw [hg] at h1
    cases h1
  · exact ⟨rfl, rfl, rfl⟩

/-- C67: `indent` does to the lines what C34 says, with the statements and the tree of the file, and returns
whether something was changed; statements and tree stay. -/
theorem C67_indent_partial (x : Exts) (hx : x.Forward) (hn : NeedToken x) (parse : PState → Res POut) (hp : IsParser x parse) (tab : Ind.Table)
    (st st' : Flex.State) (disk : Option (List Str)) (name : Str) (lastCol : Int) (given : FileType) (pf : PFile)
    (h : PFile.make st disk name lastCol given = .ok (pf, st')) (hg : pf.good = true) (t : Option PNode) (ht : TreeIs x pf.lines t) :
    (∀ e, Ind.indent tab (stmtsOf pf.lines) t pf.lines = .error e → pf.indent parse tab = .error e) ∧
    ∀ ls b, Ind.indent tab (stmtsOf pf.lines) t pf.lines = .ok (ls, b) → ∃ pf', pf.indent parse tab = .ok (b, pf') ∧
      pf'.lines = ls ∧ pf'.good = true ∧ pf'.stmts = stmtsOf pf.lines ∧ pf'.tree = t := by
  rcases C67_make st st' _ name lastCol given pf h with ⟨_, raws', type, gs, h1, h2, h3, h4, h5⟩ | ⟨h1, _⟩
  · have ha : Asked pf.lines t false pf := by
      rw [h5]
      exact ⟨rfl, rfl, fun h => (by cases h), rfl, fun _ => rfl, fun h => (by cases h)⟩
    obtain ⟨pf', k1, k2⟩ := asked_tree hx hn hp (scanAs_stmts h3 h4) ht ha
    obtain ⟨e1, e2, _⟩ := k2.tree rfl
    unfold PFile.indent PFile.parseTree
    rw [k1]
    simp only [Res.ok_bind]
    rw [k2.stmts e2, e1, k2.lines]
    refine ⟨fun e he => by rw [he]; rfl, fun ls b hb => ?_⟩
    rw [hb]
    exact ⟨_, rfl, rfl, by simp [PFile.good, k2.bad], rfl, rfl⟩
  · rw [hg] at h1
    cases h1

/-! ### Examples, and where it goes wrong -/

/-- The lines of a free-format text. -/
def linesOfText (raws : List String) : List LLine :=
  match PFile.make {} (some (raws.map String.toList)) "a.f90".toList 0 .unknown with
  | .ok (pf, _) => pf.lines
  | .error _ => []

/-- A test of the outcome of the program parser on a text. -/
def parsesAs (raws : List String) (q : POut → Bool) : Bool :=
  outIs (run noExts 40 .program (stateOf (linesOfText raws) (stmtsOf (linesOfText raws)))) q

def readGood (raws : List String) : Bool :=
  match PFile.make {} (some (raws.map String.toList)) "a.f90".toList 0 .unknown with
  | .ok (pf, _) => pf.good
  | .error _ => false

theorem readGood_make {raws : List String} (h : readGood raws = true) : ∃ pf st',
    PFile.make {} (some (raws.map String.toList)) "a.f90".toList 0 .unknown = .ok (pf, st') ∧ pf.good = true ∧ pf.lines = linesOfText raws := by
  unfold readGood at h
  unfold linesOfText
  split at h
  · rename_i pf st' e
    exact ⟨pf, st', e, h, rfl⟩
  · cases h

/-- `read_file` on a text that is read: it returns `false`, and the file is good. -/
example : ∃ pf st', PFile.readFile {} {} (some ["end".toList]) "a.f90".toList 0 .unknown = .ok (false, pf, st') ∧ pf.good = true := by
  obtain ⟨pf, st', h1, h2, _⟩ := readGood_make (raws := ["end"]) (by decide +kernel)
  refine ⟨pf, st', ?_, h2⟩
  rw [C67_readFile]
  have h1 : PFile.make {} (some ["end".toList]) "a.f90".toList 0 .unknown = .ok (pf, st') := h1
  rw [h1]
  simp [Res.ok_bind, h2]

/-- A file that cannot be opened, and one whose suffix tells nothing; after them another one may be read. -/
example : ∃ pf, PFile.make {} none "a.f90".toList 0 .unknown = .ok (pf, {}) ∧ pf.good = false ∧
    PFile.make {} (some ["end".toList]) "a.txt".toList 0 .unknown = .ok (pf, {}) := ⟨{}, rfl, rfl, by rfl⟩

/-- A free-format file with a comment and a continued line. -/
example : ∃ pf st', PFile.make {} (some (["x = & ! a", "  & 1", "", "end"].map String.toList)) "a.f90".toList 0 .unknown = .ok (pf, st') ∧
    pf.good = true ∧ fileText pf.lines = ["x = & ! a", "  & 1", "", "end"].map String.toList := by
  obtain ⟨pf, st', h1, h2, _⟩ := readGood_make (raws := ["x = & ! a", "  & 1", "", "end"]) (by decide +kernel)
  exact ⟨pf, st', h1, h2, C67_text _ _ _ _ _ _ pf h1 h2 (by decide +kernel)⟩

/-- A file with a subroutine: whatever the program parser is, the tree has a leaf for each of the three
statements, and the cursor of the second statement is at its leaf. -/
example : ∃ pf st' t, PFile.make {} (some (["subroutine s", "x=1 ! a", "end"].map String.toList)) "a.f90".toList 0 .unknown = .ok (pf, st') ∧
    pf.good = true ∧ TreeIs noExts pf.lines (some t) ∧ leavesOf t = [0, 1, 2] ∧
    ∀ parse, IsParser noExts parse → pf.askAll parse [.node 1, .tree, .node 1] =
      .ok [.node none, .tree (some t), .node (lastLeaf (some t) 1)] := by
  obtain ⟨pf, st', h1, h2, h3⟩ := readGood_make (raws := ["subroutine s", "x=1 ! a", "end"]) (by decide +kernel)
  have hne : stmtsOf (linesOfText ["subroutine s", "x=1 ! a", "end"]) ≠ [] := by decide +kernel
  obtain ⟨o, h4, h5⟩ := returns_of (x := noExts) (r := .program)
    (s := stateOf (linesOfText ["subroutine s", "x=1 ! a", "end"]) (stmtsOf (linesOfText ["subroutine s", "x=1 ! a", "end"])))
    (q := fun o => o.ok && o.tree.any (fun t => leavesOf t == [0, 1, 2])) 40 (by decide +kernel)
  simp only [Bool.and_eq_true, beq_iff_eq, Option.any_eq_true] at h5
  obtain ⟨h5, t, h6, h7⟩ := h5
  have ht : TreeIs noExts pf.lines (some t) := by
    rw [h3]
    exact .inr ⟨hne, o, h4, h5, h6⟩
  refine ⟨pf, st', t, h1, h2, ht, h7, fun parse hp => ?_⟩
  exact C67_asks_partial noExts SP.forward_none needToken_none parse hp _ _ _ _ _ _ pf h1 h2 _ ht _

/-- C67 fails for a file that has statements and that the program parser does not accept: asking for the tree
fails an assertion. -/
theorem C67_violation_parse (x : Exts) (hx : x.Forward) (hn : NeedToken x) (parse : PState → Res POut) (hp : IsParser x parse) (st st' : Flex.State)
    (disk : Option (List Str)) (name : Str) (lastCol : Int) (given : FileType) (pf : PFile)
    (h : PFile.make st disk name lastCol given = .ok (pf, st')) (hg : pf.good = true) (hne : stmtsOf pf.lines ≠ []) (o : POut)
    (ho : PReturns x .program (stateOf pf.lines (stmtsOf pf.lines)) (.ok o)) (hk : o.ok = false) : pf.parseTree parse = .error .assertion := by
  rcases C67_make st st' _ name lastCol given pf h with ⟨_, raws', type, gs, h1, h2, h3, h4, h5⟩ | ⟨h1, _⟩
  · have ha : Asked pf.lines none false pf := by
      rw [h5]
      exact ⟨rfl, rfl, fun h => (by cases h), rfl, fun _ => rfl, fun h => (by cases h)⟩
    obtain ⟨pf', e1, e2, e3, e4⟩ := asked_stmts (scanAs_stmts h3 h4) ha
    have hpo : parse (stateOf pf.lines (stmtsOf pf.lines)) = .ok o := (hp _ (stateOf_full _ _)).unique ho
    unfold PFile.parseTree PFile.prefetchTree PFile.buildTree PFile.statements
    rw [ha.treeOk, ha.bad, e1]
    simp only [Res.ok_bind, Bool.false_eq_true, if_false]
    rw [e3, if_neg hne, e4.lines, hpo]
    simp only [Res.ok_bind, (C39_tree_partial x hx hn .program _ (stateOf_full _ _) o ho).2.2.1 hk]
    rfl
  · rw [hg] at h1
    cases h1

/-- Such a file: `x=1` by itself. -/
theorem C67_violation_parse_example : ∃ pf st', PFile.make {} (some ["x=1".toList]) "a.f90".toList 0 .unknown = .ok (pf, st') ∧ pf.good = true ∧
    ∀ parse, IsParser noExts parse → pf.parseTree parse = .error .assertion := by
  obtain ⟨pf, st', h1, h2, h3⟩ := readGood_make (raws := ["x=1"]) (by decide +kernel)
  obtain ⟨o, h4, h5⟩ := returns_of (x := noExts) (r := .program) (s := stateOf (linesOfText ["x=1"]) (stmtsOf (linesOfText ["x=1"])))
    (q := fun o => !o.ok) 40 (by decide +kernel)
  simp only [Bool.not_eq_true'] at h5
  refine ⟨pf, st', h1, h2, fun parse hp => ?_⟩
  exact C67_violation_parse noExts SP.forward_none needToken_none parse hp _ _ _ _ _ _ pf h1 h2 (by rw [h3]; decide +kernel) o (by rw [h3]; exact h4) h5

/-- C67: a file that is read into an object that has none is put behind the lines the object has. -/
theorem C67_readFile_lines (st st' : Flex.State) (pf pf' : PFile) (disk : Option (List Str)) (name : Str) (lastCol : Int) (given : FileType)
    (b : Bool) (h : PFile.readFile st pf disk name lastCol given = .ok (b, pf', st')) :
    (b = true ∧ pf' = pf) ∨ ∃ new, b = false ∧ PFile.make st disk name lastCol given = .ok ({ lines := new, bad := false }, st') ∧
      pf' = { pf with lines := pf.lines ++ new, bad := false } := by
  unfold PFile.readFile at h
  split at h
  · cases h
  · rename_i hb
    rbind h with r hr
    injection h with h
    injection h with h1 h
    injection h with h2 h3
    obtain ⟨o, st1⟩ := r
    cases o with
    | none =>
      left
      simp only [PFile.load] at h1 h2
      exact ⟨by rw [← h1]; simpa using hb, h2.symm⟩
    | some ls =>
      right
      simp only [PFile.load] at h1 h2
      refine ⟨ls, h1.symm, ?_, h2.symm⟩
      unfold PFile.make
      rw [hr]
      simp only [Res.ok_bind]
      dsimp only at h3
      rw [← h3]
      rfl

/-- C67: whatever the parser is, its tree is the tree of the file, and the file is good if the parser says so. -/
theorem C67_parse_result (parse : PState → Res POut) (pf pf1 : PFile) (ss : List LLStmt) (hg : pf.good = true) (ht : pf.treeOk = false)
    (hs : pf.statements = .ok (ss, pf1)) (hne : ss ≠ []) (o : POut) (t : PNode) (ho : parse (stateOf pf1.lines ss) = .ok o)
    (hot : o.tree = some t) : ∃ pf', pf.parseTree parse = .ok (some t, pf') ∧ pf'.good = (pf1.good && o.ok) ∧ pf'.lines = pf1.lines := by
  have hb : pf.bad = false := by simpa [PFile.good] using hg
  refine ⟨{ pf1 with tree := some t, bad := if o.ok then pf1.bad else true, hooks := link [] t pf1.hooks, treeOk := true }, ?_, ?_, rfl⟩
  · unfold PFile.parseTree PFile.prefetchTree PFile.buildTree
    rw [ht, hb]
    simp only [Bool.false_eq_true, if_false]
    rw [hs]
    simp only [Res.ok_bind]
    rw [if_neg hne, ho]
    simp only [Res.ok_bind, hot]
  · show (!(if o.ok then pf1.bad else true)) = (!pf1.bad && o.ok)
    cases o.ok <;> simp

/-- C67: the parser is given the labels of the statements. -/
theorem C67_labels (lines : List LLine) (ss : List LLStmt) : (stateOf lines ss).stmts.map (·.label) = ss.map (·.label) := by
  unfold stateOf
  rw [List.map_map]
  apply List.map_congr_left
  intro s _
  simp only [Function.comp, stmtView]
  split
  · split <;> rfl
  · rfl


end PF
end FLPR
