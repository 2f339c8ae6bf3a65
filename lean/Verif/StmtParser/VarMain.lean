import Verif.StmtParser.VarCheck
import Verif.StmtParser.VarStd
/-!
# Where a statement is recognised, and where a variable is called in vain
-/

namespace FLPR
namespace SP
open Spec

/-! ### Ways to a variable -/

/-- A way through a form, up to a variable. -/
inductive Way where
  | here
  | first (g : Way)
  | next (g : Way)
  | left (g : Way)
  | right (g : Way)
  | again (g : Way)

/-- What is taken on the way. -/
def VForm.along : VForm → Way → PForm
  | .var, .here => .eps
  | .seq a _, .first g => along a g
  | .seq a b, .next g => .seq a.kill (along b g)
  | .alt a _, .left g => along a g
  | .alt _ b, .right g => along b g
  | .star a, .again g => .seq (.star a.kill) (along a g)
  | _, _ => .never

/-- The parser goes this way. -/
def goes (ax : PForm → List Pat → Bool) (K : Look) (n : Nat) (S : List Pat) : VForm → Way → Bool
  | .var, .here => true
  | .seq a _, .first g => goes ax K n S a g
  | .seq a b, .next g => chkV [] ax K n a (pre K (b.along g) S) && goes ax K n S b g
  | .alt a _, .left g => goes ax K n S a g
  | .alt a b, .right g => quiet [] K n a [b.along g] S && goes ax K n S b g
  | .star a, .again g => chkV [] ax K n a (pre K (.seq (.star a.kill) (a.along g)) S) && goes ax K n S a g
  | _, _ => false

theorem whole_fine {s : Strm} (hs : WholeStmt s) : Fine (restOf s) :=
  ⟨good_noBad (whole_fresh hs).good, good_nested (whole_fresh hs).good⟩

theorem goes_sound {ax : PForm → List Pat → Bool} (hax : ∀ F S, ax F S = true → TakesN [] F S) {K : Look} {n k : Nat} {S : List Pat} : ∀ (V : VForm) (g : Way), goes ax K n S V g = true → ∀ w u, Fine (w ++ u) →
    (V.along g).erase.Is w → SHas [] S [] u → u.length < k → V.exec k (w ++ u) = .stuck := by
  intro V
  induction V with
  | base F => intro g h; cases g <;> cases h
  | var =>
    intro g h w u hb hw hu hl
    cases g with
    | here =>
      rw [show w = [] from hw, List.nil_append, VForm.exec, varL, if_pos hl]
    | _ => cases h
  | seq a b iha ihb =>
    intro g h w u hb hw hu hl
    cases g with
    | first g => rw [VForm.exec, iha g h w u hb hw hu hl]; rfl
    | next g =>
      rw [goes, Bool.and_eq_true] at h
      obtain ⟨x, y, rfl, hx, hy⟩ := hw
      rw [List.append_assoc] at hb ⊢
      rw [VForm.exec, chkV_sound hax _ _ h.1 x [] (y ++ u) hb ((eraseBut_nil _ _).mpr hx)
        (pre_sound K (b.along g) S y [] u ((eraseBut_nil _ _).mpr hy) hu), thenA]
      exact ihb g h.2 y u hb.right hy hu hl
    | _ => cases h
  | alt a b iha ihb =>
    intro g h w u hb hw hu hl
    cases g with
    | left g => rw [VForm.exec, iha g h w u hb hw hu hl]; rfl
    | right g =>
      rw [goes, Bool.and_eq_true] at h
      rw [VForm.exec, quiet_sound (bs := [b.along g]) (ex := []) hb.1 ⟨w, [], by simp, (eraseBut_nil _ _).mpr hw, rfl⟩ hu h.1, elseA]
      exact ihb g h.2 w u hb hw hu hl
    | _ => cases h
  | star a ih =>
    intro g h w u hb hw hu hl
    cases g with
    | again g =>
      rw [goes, Bool.and_eq_true] at h
      obtain ⟨x, y, rfl, ⟨ps, rfl, hps⟩, hy⟩ := hw
      rw [List.append_assoc] at hb ⊢
      rw [VForm.exec]
      have key : ∀ (ps : List (List Tok)) (m : Nat), (∀ q ∈ ps, q ≠ [] ∧ a.kill.erase.Is q) → Fine (ps.flatten ++ (y ++ u)) →
          (ps.flatten ++ (y ++ u)).length < m → starA (a.exec k) m (ps.flatten ++ (y ++ u)) = .stuck := by
        intro ps
        induction ps with
        | nil =>
          intro m _ hb hm
          rw [List.flatten_nil, List.nil_append] at hb hm ⊢
          obtain ⟨m', rfl⟩ : ∃ m', m = m' + 1 := ⟨m - 1, by omega⟩
          rw [starA, ih g h.2 y u hb hy hu hl]
        | cons q ps ihp =>
          intro m hps hb hm
          obtain ⟨hq, hqa⟩ := hps q (by simp)
          rw [List.flatten_cons, List.append_assoc] at hb hm ⊢
          have hl : 0 < q.length := List.length_pos_iff.mpr hq
          rw [List.length_append] at hm
          obtain ⟨m', rfl⟩ : ∃ m', m = m' + 1 := ⟨m - 1, by omega⟩
          have hs : ((PForm.seq (.star a.kill) (a.along g)).eraseBut []).Is (ps.flatten ++ y) :=
            (eraseBut_nil _ _).mpr ⟨ps.flatten, y, rfl, ⟨ps, rfl, fun q' h' => hps q' (by simp [h'])⟩, hy⟩
          have hpre := pre_sound K (.seq (.star a.kill) (a.along g)) S _ [] u hs hu
          rw [List.append_assoc] at hpre
          rw [starA, chkV_sound hax _ _ h.1 q [] (ps.flatten ++ (y ++ u)) hb ((eraseBut_nil _ _).mpr hqa) hpre]
          simp only
          rw [if_pos (by rw [List.length_append (as := q)]; omega)]
          exact ihp m' (fun q' h' => hps q' (by simp [h'])) hb.right (by omega)
      exact key ps _ hps hb (by omega)
    | _ => cases h

/-! ### An optional part at the beginning -/

/-- Another form in place of the first one like `F`. -/
def VForm.put (F G : PForm) : VForm → VForm
  | .base H => if H = F then .base G else .base H
  | .seq (.base H) b => if H = F then .seq (.base G) b else .seq (.base H) (put F G b)
  | .seq a b => .seq (put F G a) b
  | a => a

/-- Every word of the form has this tag. -/
def hasF (t : Int) : Form → Bool
  | .never => true
  | .word u => u == t
  | .seq a b => hasF t a || hasF t b
  | .alt a b => hasF t a && hasF t b
  | _ => false

theorem hasF_sound {t : Int} : ∀ (F : Form) (w : List Tok), hasF t F = true → F.Is w → ∃ a ∈ w, a.token = t := by
  intro F
  induction F with
  | never => intro w _ h; exact absurd h id
  | word u =>
    rintro w h ⟨a, rfl, ha⟩
    exact ⟨a, by simp, ha.trans (eq_of_beq h)⟩
  | seq a b iha ihb =>
    rintro w h ⟨u, v, rfl, h1, h2⟩
    rw [hasF, Bool.or_eq_true] at h
    rcases h with h | h
    · obtain ⟨c, hc, e⟩ := iha u h h1; exact ⟨c, by simp [hc], e⟩
    · obtain ⟨c, hc, e⟩ := ihb v h h2; exact ⟨c, by simp [hc], e⟩
  | alt a b iha ihb =>
    intro w h hw
    rw [hasF, Bool.and_eq_true] at h
    rcases hw with hw | hw
    · exact iha w h.1 hw
    · exact ihb w h.2 hw
  | _ => intro w h; cases h

theorem exec_seq (k : Nat) (a b : VForm) (ts : List Tok) : (VForm.seq a b).exec k ts = thenA (a.exec k ts) (b.exec k) := rfl

theorem exec_base_none {k : Nat} {H : PForm} {b : VForm} {ts : List Tok} (h : H.run ts = none) :
    (VForm.seq (.base H) b).exec k ts = .acts none := by
  rw [exec_seq, VForm.exec, h]; rfl

theorem exec_base_some {k : Nat} {H : PForm} {b : VForm} {ts r : List Tok} (h : H.run ts = some r) :
    (VForm.seq (.base H) b).exec k ts = b.exec k r := by
  rw [exec_seq, VForm.exec, h]; rfl

/-- Without the tag, the optional part is not there. -/
theorem put_empty {k : Nat} {t : Int} {G : PForm} (hG : hasF t G.erase = true) : ∀ (V : VForm) (ts : List Tok), Nested (ts.map (·.token)) →
    (∀ a ∈ ts, a.token ≠ t) → (V.put (.alt G .eps) .eps).exec k ts = V.exec k ts := by
  have none : ∀ ts : List Tok, Nested (ts.map (·.token)) → (∀ a ∈ ts, a.token ≠ t) → (PForm.alt G .eps).run ts = some ts := by
    intro ts hn ha
    rw [PForm.run]
    cases hr : G.run ts with
    | none => rfl
    | some r =>
      obtain ⟨w, rfl, hw⟩ := run_sound _ _ _ hn hr
      obtain ⟨a, h1, h2⟩ := hasF_sound _ w hG hw
      exact absurd h2 (ha a (by simp [h1]))
  intro V
  induction V with
  | base H =>
    intro ts hn ha
    rw [VForm.put]
    split
    · next e => subst e; rw [VForm.exec, VForm.exec, none ts hn ha]; rfl
    · rfl
  | var => intro ts _ _; rfl
  | alt a b _ _ => intro ts _ _; rfl
  | star a _ => intro ts _ _; rfl
  | seq a b iha ihb =>
    intro ts hn ha
    cases a with
    | base H =>
      rw [VForm.put]
      split
      · next e => subst e; rw [exec_base_some (none ts hn ha), exec_base_some (H := .eps) rfl]
      · cases hr : H.run ts with
        | none => rw [exec_base_none hr, exec_base_none hr]
        | some r =>
          rw [exec_base_some hr, exec_base_some hr]
          obtain ⟨w, rfl, _⟩ := run_sound _ _ _ hn hr
          rw [List.map_append] at hn
          exact ihb r hn.suffix (fun a h => ha a (by simp [h]))
    | var => rfl
    | seq a1 a2 =>
      have := iha ts hn ha
      show ((VForm.put _ _ (.seq a1 a2)).seq b).exec k ts = _
      rw [exec_seq, this, exec_seq _ (a1.seq a2)]
    | alt a1 a2 => rfl
    | star a1 => rfl

/-- With the optional part, or a special case of it. -/
theorem put_part {k : Nat} {G F : PForm} {ex : List Int}
    (hGF : ∀ ts r, (∀ a ∈ ts, a.token ∉ ex) → F.run ts = some r → G.run ts = some r) : ∀ (V : VForm) (ts : List Tok),
    Nested (ts.map (·.token)) → (∀ a ∈ ts, a.token ∉ ex) → (V.put (.alt G .eps) F).exec k ts ≠ .acts none →
    V.exec k ts = (V.put (.alt G .eps) F).exec k ts := by
  intro V
  induction V with
  | base H =>
    intro ts hn ha h
    rw [VForm.put] at h ⊢
    split
    · next e =>
      subst e
      rw [if_pos rfl, VForm.exec] at h
      rw [VForm.exec, VForm.exec, PForm.run]
      cases hr : F.run ts with
      | none => rw [hr] at h; exact absurd rfl h
      | some r => rw [hGF ts r ha hr]
    · rfl
  | var => intro ts _ _ _; rfl
  | alt a b _ _ => intro ts _ _ _; rfl
  | star a _ => intro ts _ _ _; rfl
  | seq a b iha ihb =>
    intro ts hn ha h
    cases a with
    | base H =>
      rw [VForm.put] at h ⊢
      split
      · next e =>
        subst e
        rw [if_pos rfl] at h
        cases hr : F.run ts with
        | none => rw [exec_base_none hr] at h; exact absurd rfl h
        | some r => rw [exec_base_some hr, exec_base_some (r := r) (by rw [PForm.run, hGF ts r ha hr])]
      · next e =>
        rw [if_neg e] at h
        cases hr : H.run ts with
        | none => rw [exec_base_none hr, exec_base_none hr]
        | some r =>
          rw [exec_base_some hr] at h
          rw [exec_base_some hr, exec_base_some hr]
          obtain ⟨w, rfl, _⟩ := run_sound _ _ _ hn hr
          rw [List.map_append] at hn
          exact ihb r hn.suffix (fun a h => ha a (by simp [h])) h
    | var => rfl
    | seq a1 a2 =>
      have h : ((VForm.put (.alt G .eps) F (.seq a1 a2)).seq b).exec k ts ≠ .acts none := h
      show _ = ((VForm.put (.alt G .eps) F (.seq a1 a2)).seq b).exec k ts
      rw [exec_seq] at h
      rw [exec_seq, exec_seq k (VForm.put _ _ _)]
      by_cases hn : (VForm.put (.alt G .eps) F (.seq a1 a2)).exec k ts = .acts none
      · rw [hn] at h; exact absurd rfl h
      · rw [← iha ts ‹_› ha hn]
    | alt a1 a2 => rfl
    | star a1 => rfl

/-- Every word of the form begins with one of these. -/
def startsF (ex : List Int) : PForm → Bool
  | .never => true
  | .tok t => ex.contains t
  | .seq a _ => startsF ex a
  | .alt a b => startsF ex a && startsF ex b
  | _ => false

theorem startsF_none {ex : List Int} {ts : List Tok} (h : ∀ a ∈ ts, a.token ∉ ex) : ∀ F, startsF ex F = true → PForm.run F ts = none := by
  intro F
  induction F with
  | never => intro _; rfl
  | tok t =>
    intro hF
    cases ts with
    | nil => rfl
    | cons a ts =>
      have ha := h a (by simp)
      rw [startsF, List.contains_eq_mem, decide_eq_true_iff] at hF
      rw [PForm.run, PForm.take1, if_neg (by simp; rintro rfl; exact ha hF)]
  | seq a b iha _ => intro hF; rw [PForm.run, iha hF]; rfl
  | alt a b iha ihb =>
    intro hF
    rw [startsF, Bool.and_eq_true] at hF
    rw [PForm.run, iha hF.1]
    exact ihb hF.2
  | _ => intro hF; cases hF

/-- The second alternative, where the first one cannot begin. -/
theorem second_run {ex : List Int} {a b c : PForm} (ha : startsF ex a = true) (ts r : List Tok) (h : ∀ t ∈ ts, t.token ∉ ex)
    (hr : (PForm.seq b c).run ts = some r) : (PForm.seq (.alt a (.alt b .never)) c).run ts = some r := by
  rw [PForm.run] at hr ⊢
  rw [PForm.run, startsF_none h a ha]
  cases hb : b.run ts with
  | none => rw [hb] at hr; cases hr
  | some q => rw [hb] at hr; simp only [PForm.run, hb]; exact hr

theorem first_run {a b c : PForm} (ts r : List Tok) (hr : (PForm.seq a c).run ts = some r) : (PForm.seq (.alt a b) c).run ts = some r := by
  rw [PForm.run] at hr ⊢
  rw [PForm.run]
  cases hb : a.run ts with
  | none => rw [hb] at hr; cases hr
  | some q => rw [hb] at hr; exact hr

/-! ### Recognition -/

theorem acts_whole {x : Exts} (hx : GoodExts x) {s : Strm} (hs : WholeStmt s) {r : R} {V : VForm} (hV : toV 40 (.rule r) = some V) {k : Nat}
    (hk : LastPair s k) : Acts x (.rule r) s (V.exec k (restOf s)) :=
  acts_form hx (whole_fresh hs).good hk 40 (.rule r) V s.pos hV (whole_fresh hs).good.lo_pos (whole_fresh hs).good.pos_hi

theorem exec_ub {x : Exts} (hx : GoodExts x) (hf : x.Forward) {tag : Int} {r : R}
    (hr : dispatchTable.find? (fun q => q.1 == tag) = some (tag, r)) (hi : r ≠ .image_selector) {V : VForm} (hV : toV 40 (.rule r) = some V)
    {s : Strm} (hs : WholeStmt s) (hn : NoImages s.all) {k : Nat} (hk : LastPair s k) (he : V.exec k (restOf s) = .stuck) :
    DispatchReturns x tag s (.error .ub) := by
  have h := acts_whole hx hs hV hk
  rw [he] at h
  exact stuck_ub hx hf hr hi (whole_fresh hs).good hn h

theorem exec_ok {x : Exts} (hx : GoodExts x) (hf : x.Forward) {tag : Int} {r : R}
    (hr : dispatchTable.find? (fun q => q.1 == tag) = some (tag, r)) (hi : r ≠ .image_selector) {V : VForm} (hV : toV 40 (.rule r) = some V)
    {s : Strm} (hs : WholeStmt s) (hn : NoImages s.all) {k : Nat} (hk : LastPair s k) {z : List Tok}
    (he : V.exec k (restOf s) = .acts (some z)) : Recognised x tag s := by
  have h := acts_whole hx hs hV hk
  rw [he] at h
  exact (recognised_does hx hf hr hi (whole_fresh hs).good hn h).1.mpr ⟨z, rfl⟩

/-- What is recognised is a statement without variables. -/
theorem var_sound {x : Exts} (hx : GoodExts x) (hf : x.Forward) {tag : Int} {r : R}
    (hr : dispatchTable.find? (fun q => q.1 == tag) = some (tag, r)) (hi : r ≠ .image_selector) {V : VForm} (hV : toV 40 (.rule r) = some V)
    (hsh : V.shape = true) (hg : V.guard = true) {F : Form} (hF : sameForm (prune V.kill.erase) F = true)
    {s : Strm} (hs : WholeStmt s) (hn : NoImages s.all) (h : Recognised x tag s) : F.Is (restOf s) := by
  obtain ⟨k, hk⟩ := lastPair_exists hs
  have ha := acts_whole hx hs hV hk
  cases he : V.exec k (restOf s) with
  | stuck =>
    exfalso
    obtain ⟨m, t, h⟩ := h
    have := exec_ub hx hf hr hi hV hs hn hk he
    rw [dispatch_iff, hr] at this h
    cases h.unique this
  | acts q =>
    rw [he] at ha
    obtain ⟨z, rfl⟩ := (recognised_does hx hf hr hi (whole_fresh hs).good hn ha).1.mp h
    have hk := recognised_kill hs hk hsh hg he
    obtain ⟨w, e, hw⟩ := run_sound _ _ _ (good_nested (whole_fresh hs).good) hk
    rw [List.append_nil] at e
    rw [e]
    exact (sameForm_is hF _).mp ((prune_is _ _).mpr hw)

/-- A statement without variables is recognised. -/
theorem var_complete {ax : PForm → List Pat → Bool} (hax : ∀ F S, ax F S = true → TakesN [] F S) {x : Exts} (hx : GoodExts x) (hf : x.Forward) {tag : Int} {r : R}
    (hr : dispatchTable.find? (fun q => q.1 == tag) = some (tag, r)) (hi : r ≠ .image_selector) {V : VForm} (hV : toV 40 (.rule r) = some V)
    {K : Look} {n : Nat} (hc : chkV [] ax K n V [.stop] = true) {F : Form} (hF : sameForm (prune V.kill.erase) F = true)
    {s : Strm} (hs : WholeStmt s) (hn : NoImages s.all) (h : F.Is (restOf s)) : Recognised x tag s := by
  obtain ⟨k, hk⟩ := lastPair_exists hs
  exact exec_ok hx hf hr hi hV hs hn hk
    (chkV_all hax hc (whole_fine hs) ((prune_is _ _).mp ((sameForm_is hF _).mpr h)))

/-- With an optional part at the beginning, which is there. -/
theorem var_complete_part {ax : PForm → List Pat → Bool} (hax : ∀ F S, ax F S = true → TakesN [] F S) {x : Exts} (hx : GoodExts x) (hf : x.Forward) {tag : Int} {r : R}
    (hr : dispatchTable.find? (fun q => q.1 == tag) = some (tag, r)) (hi : r ≠ .image_selector) {V : VForm} (hV : toV 40 (.rule r) = some V)
    (G G' : PForm) {ex : List Int}
    (hGG : ∀ ts r, (∀ a ∈ ts, a.token ∉ ex) → PForm.run G' ts = some r → PForm.run G ts = some r) {K : Look} {n : Nat} (hc : chkV [] ax K n (V.put (.alt G .eps) G') [.stop] = true) {F : Form}
    (hF : sameForm (prune (V.put (.alt G .eps) G').kill.erase) F = true)
    {s : Strm} (hs : WholeStmt s) (hn : NoImages s.all) (ht : ∀ a ∈ restOf s, a.token ∉ ex) (h : F.Is (restOf s)) : Recognised x tag s := by
  obtain ⟨k, hk⟩ := lastPair_exists hs
  have := chkV_all hax (k := k) hc (whole_fine hs) ((prune_is _ _).mp ((sameForm_is hF _).mpr h))
  refine exec_ok hx hf hr hi hV hs hn hk (z := []) ?_
  rw [put_part hGG V _ (good_nested (whole_fresh hs).good) ht (by rw [this]; exact fun h => (by cases h)), this]

/-- With an optional part at the beginning, which is not there. -/
theorem var_complete_empty {ax : PForm → List Pat → Bool} (hax : ∀ F S, ax F S = true → TakesN [] F S) {x : Exts} (hx : GoodExts x) (hf : x.Forward) {tag : Int} {r : R}
    (hr : dispatchTable.find? (fun q => q.1 == tag) = some (tag, r)) (hi : r ≠ .image_selector) {V : VForm} (hV : toV 40 (.rule r) = some V)
    (G : PForm) (t : Int) (hG : hasF t G.erase = true) {K : Look} {n : Nat} (hc : chkV [] ax K n (V.put (.alt G .eps) .eps) [.stop] = true) {F : Form}
    (hF : sameForm (prune (V.put (.alt G .eps) .eps).kill.erase) F = true)
    {s : Strm} (hs : WholeStmt s) (hn : NoImages s.all) (ht : ∀ a ∈ restOf s, a.token ≠ t) (h : F.Is (restOf s)) : Recognised x tag s := by
  obtain ⟨k, hk⟩ := lastPair_exists hs
  have := chkV_all hax (k := k) hc (whole_fine hs) ((prune_is _ _).mp ((sameForm_is hF _).mpr h))
  refine exec_ok hx hf hr hi hV hs hn hk (z := []) ?_
  rw [← put_empty hG V _ (good_nested (whole_fresh hs).good) ht, this]

/-! ### Undefined behaviour -/

theorem begins_last {s : Strm} (hs : WholeStmt s) {pre first : Form} (h : Begins pre first (restOf s)) :
    ∃ w u, restOf s = w ++ u ∧ (Form.seqs [pre, .word Tag.TK_PARENL, first]).Is w ∧ ∃ k, LastPair s k ∧ u.length < k := by
  obtain ⟨p, o, g, m, c, e, hp, hg, ho, hc, hw⟩ := h
  refine ⟨p ++ o :: g, m ++ [c], by rw [e]; simp, ⟨p, o :: g, rfl, hp, [o], g, rfl, ⟨o, rfl, ho⟩, g, [], by simp, hg, rfl⟩, ?_⟩
  refine ⟨_, lastPair_group (whole_fresh hs).good e hw (by simp [ho, hc]), by simp; omega⟩

theorem var_ub {ax : PForm → List Pat → Bool} (hax : ∀ F S, ax F S = true → TakesN [] F S) {x : Exts} (hx : GoodExts x) (hf : x.Forward) {tag : Int} {r : R}
    (hr : dispatchTable.find? (fun q => q.1 == tag) = some (tag, r)) (hi : r ≠ .image_selector) {V : VForm} (hV : toV 40 (.rule r) = some V)
    (g : Way) {K : Look} {n : Nat} (hg : goes ax K n [.any] V g = true) {pre first : Form}
    (hF : sameForm (prune (V.along g).erase) (.seqs [pre, .word Tag.TK_PARENL, first]) = true)
    {s : Strm} (hs : WholeStmt s) (hn : NoImages s.all) (h : Begins pre first (restOf s)) : DispatchReturns x tag s (.error .ub) := by
  obtain ⟨w, u, e, hw, k, hk, hl⟩ := begins_last hs h
  refine exec_ub hx hf hr hi hV hs hn hk ?_
  have hb := whole_fine hs
  rw [e] at hb ⊢
  exact goes_sound hax V g hg w u hb ((prune_is _ _).mp ((sameForm_is hF _).mpr hw)) any_shas hl

/-- The same where nothing comes after the variable that is missing. -/
theorem var_ub_empty {ax : PForm → List Pat → Bool} (hax : ∀ F S, ax F S = true → TakesN [] F S) {x : Exts} (hx : GoodExts x) (hf : x.Forward) {tag : Int} {r : R}
    (hr : dispatchTable.find? (fun q => q.1 == tag) = some (tag, r)) (hi : r ≠ .image_selector) {V : VForm} (hV : toV 40 (.rule r) = some V)
    (g : Way) {K : Look} {n : Nat} (hg : goes ax K n [⟨[.word Tag.TK_PARENR], true, none⟩] V g = true) {pre first : Form}
    (hF : sameForm (prune (V.along g).erase) (.seqs [pre, .word Tag.TK_PARENL, first]) = true) (hfw : balF [] first = some [])
    {s : Strm} (hs : WholeStmt s) (hn : NoImages s.all) (h : (Form.seqs [pre, .paren first]).Is (restOf s)) :
    DispatchReturns x tag s (.error .ub) := by
  obtain ⟨p, _, e, hp, q, _, rfl, ⟨_, _, rfl, ⟨o, rfl, ho⟩, f, _, rfl, hfs, _, _, rfl, ⟨c, rfl, hc⟩, rfl⟩, rfl⟩ := h
  have e : restOf s = (p ++ o :: f) ++ [c] := by rw [e]; simp
  have hk := lastPair_group (whole_fresh hs).good (pre := p) (v := o :: (f ++ [c])) (by rw [e]; simp) (balF_wn hfw hfs) (by simp [ho, hc])
  refine exec_ub hx hf hr hi hV hs hn hk ?_
  have hb := whole_fine hs
  rw [e] at hb ⊢
  refine goes_sound hax V g hg _ [c] hb ((prune_is _ _).mp ((sameForm_is hF _).mpr ?_)) ?_ (by simp)
  · exact ⟨p, o :: f, rfl, hp, [o], f, rfl, ⟨o, rfl, ho⟩, f, [], by simp, hfs, rfl⟩
  · exact ⟨⟨[.word Tag.TK_PARENR], true, none⟩, by simp, [[c]], [], ⟨.cons ⟨c, rfl, hc⟩ .nil, fun h => by cases h⟩, rfl, fun k hk => by cases hk⟩

/-- The same with an optional part at the beginning, which is there. -/
theorem var_ub_part {ax : PForm → List Pat → Bool} (hax : ∀ F S, ax F S = true → TakesN [] F S) {x : Exts} (hx : GoodExts x) (hf : x.Forward) {tag : Int} {r : R}
    (hr : dispatchTable.find? (fun q => q.1 == tag) = some (tag, r)) (hi : r ≠ .image_selector) {V : VForm} (hV : toV 40 (.rule r) = some V)
    (G G' : PForm) {ex : List Int}
    (hGG : ∀ ts r, (∀ a ∈ ts, a.token ∉ ex) → PForm.run G' ts = some r → PForm.run G ts = some r) (g : Way) {K : Look} {n : Nat} (hg : goes ax K n [.any] (V.put (.alt G .eps) G') g = true) {pre first : Form}
    (hF : sameForm (prune ((V.put (.alt G .eps) G').along g).erase) (.seqs [pre, .word Tag.TK_PARENL, first]) = true)
    {s : Strm} (hs : WholeStmt s) (hn : NoImages s.all) (ht : ∀ a ∈ restOf s, a.token ∉ ex) (h : Begins pre first (restOf s)) : DispatchReturns x tag s (.error .ub) := by
  obtain ⟨w, u, e, hw, k, hk, hl⟩ := begins_last hs h
  refine exec_ub hx hf hr hi hV hs hn hk ?_
  have hb := whole_fine hs
  rw [e] at hb
  have := goes_sound hax _ g hg w u hb ((prune_is _ _).mp ((sameForm_is hF _).mpr hw)) any_shas hl
  rw [← e] at this
  rw [put_part hGG V _ (good_nested (whole_fresh hs).good) ht (by rw [this]; exact fun h => (by cases h)), this]

/-- The same with an optional part at the beginning, which is not there. -/
theorem var_ub_without {ax : PForm → List Pat → Bool} (hax : ∀ F S, ax F S = true → TakesN [] F S) {x : Exts} (hx : GoodExts x) (hf : x.Forward) {tag : Int} {r : R}
    (hr : dispatchTable.find? (fun q => q.1 == tag) = some (tag, r)) (hi : r ≠ .image_selector) {V : VForm} (hV : toV 40 (.rule r) = some V)
    (G : PForm) (t : Int) (hG : hasF t G.erase = true) (g : Way) {K : Look} {n : Nat} (hg : goes ax K n [.any] (V.put (.alt G .eps) .eps) g = true)
    {pre first : Form}
    (hF : sameForm (prune ((V.put (.alt G .eps) .eps).along g).erase) (.seqs [pre, .word Tag.TK_PARENL, first]) = true)
    {s : Strm} (hs : WholeStmt s) (hn : NoImages s.all) (ht : ∀ a ∈ restOf s, a.token ≠ t) (h : Begins pre first (restOf s)) :
    DispatchReturns x tag s (.error .ub) := by
  obtain ⟨w, u, e, hw, k, hk, hl⟩ := begins_last hs h
  refine exec_ub hx hf hr hi hV hs hn hk ?_
  have hb := whole_fine hs
  rw [e] at hb
  have := goes_sound hax _ g hg w u hb ((prune_is _ _).mp ((sameForm_is hF _).mpr hw)) any_shas hl
  rw [← e] at this
  rw [← put_empty hG V _ (good_nested (whole_fresh hs).good) ht, this]

end SP
end FLPR
