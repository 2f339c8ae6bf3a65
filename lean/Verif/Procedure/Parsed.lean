import Verif.Procedure.Props
import Verif.Program.ShapeProps
/-!
# Lemmas for C41: the tree of a procedure as it is parsed
-/

namespace FLPR
namespace Proc
open PP Reg Spec
open SP (R Exts)

/-! ### Taking derivations apart -/

variable {L : R → Nat → Int → Prop} {g : PR → PBody}

theorem derives_comb {r : PR} {p : T} {f : List Sh} (hr : g r = .comb p) (h : Derives L g (.rule r) f) : Derives L g p f := by
  cases h with
  | comb h1 h2 => rw [hr] at h1; injection h1 with h1; subst h1; exact h2
  | exec h1 _ => rw [hr] at h1; cases h1
  | doEnd h1 _ _ _ => rw [hr] at h1; cases h1
  | doAction h1 _ _ _ _ => rw [hr] at h1; cases h1

theorem derives_seqIf {tag : Int} {p : T} {ps : List T} {f : List Sh} (h : Derives L g (.seqIf tag p ps) f) :
    ∃ f', DerivesSeq L g (p :: ps) f' ∧ f = under tag f' := by
  cases h with
  | seqIf h => exact ⟨_, h, rfl⟩

theorem derives_seq {tag : Int} {ps : List T} {f : List Sh} (h : Derives L g (.seq tag ps) f) :
    ∃ f', DerivesSeq L g ps f' ∧ f = under tag f' := by
  cases h with
  | seq h => exact ⟨_, h, rfl⟩

theorem derivesSeq_cons {p : T} {ps : List T} {f : List Sh} (h : DerivesSeq L g (p :: ps) f) :
    ∃ a b, f = a ++ b ∧ Derives L g p a ∧ DerivesSeq L g ps b := by
  cases h with
  | cons h1 h2 => exact ⟨_, _, rfl, h1, h2⟩

theorem derivesSeq_nil {f : List Sh} (h : DerivesSeq L g [] f) : f = [] := by
  cases h; rfl

theorem derives_opt {p : T} {f : List Sh} (h : Derives L g (.opt p) f) : (f = [] ∧ ¬ Sure g p) ∨ Derives L g p f := by
  cases h with
  | optNo h => exact .inl ⟨rfl, h⟩
  | opt h => exact .inr h

theorem derives_stmt {r : R} {f : List Sh} (h : Derives L g (.stmt r) f) : ∃ i t, f = [.leaf i t] ∧ L r i t := by
  cases h with
  | stmt h => exact ⟨_, _, rfl, h⟩

theorem derives_star {p : T} {f : List Sh} (h : Derives L g (.star p) f) : DerivesRep L g p f := by
  cases h with
  | star h => exact h

theorem derivesRep_all {p : T} {Q : Sh → Prop} (hq : ∀ f, Derives L g p f → ∀ x ∈ f, Q x) :
    ∀ {f : List Sh}, DerivesRep L g p f → ∀ x ∈ f, Q x
  | _, .nil, x, hx => by cases hx
  | _, .cons h1 h2, x, hx => by
    rcases List.mem_append.mp hx with h | h
    · exact hq _ h1 x h
    · exact derivesRep_all hq h2 x h

theorem derives_alts {tag : Int} {ps : List T} {f : List Sh} (h : Derives L g (.alts tag ps) f) : ∃ f', f = under tag f' := by
  cases h with
  | alts _ h => exact ⟨_, rfl⟩

theorem derives_tagIf {tag : Int} {p : T} {f : List Sh} (h : Derives L g (.tagIf tag p) f) (hs : ¬ Bare g p) (ht : tag ≠ Tag.HOIST) : ∃ f', f = [.inner tag f'] := by
  cases h with
  | tagNo hb h => exact absurd hb hs
  | tagIf h => exact ⟨_, by rw [under, if_neg ht]⟩

/-- The branches that a specification part is made of. -/
def SpecShape (f : List Sh) : Prop :=
  ∃ uses imports impl decls, f = uses ++ (imports ++ (impl ++ decls)) ∧
    (∀ x ∈ uses, ∃ i, x = .leaf i Tag.SG_USE_STMT) ∧ (∀ x ∈ imports, ∃ i, x = .leaf i Tag.SG_IMPORT_STMT) ∧
    (∃ k, impl = [.inner Tag.PG_IMPLICIT_PART k]) ∧ (∀ x ∈ decls, ∃ k, x = .inner Tag.PG_DECLARATION_CONSTRUCT k)

theorem implicit_part_sure : Sure PR.body (.rule .implicit_part) := .comb rfl (.tagIf .star)

theorem specification_part_sure : Sure PR.body (.rule .specification_part) := by
  refine .comb rfl (.seq (fun p hp => ?_))
  simp only [List.mem_cons, List.not_mem_nil, or_false] at hp
  rcases hp with rfl | rfl | rfl | rfl
  · exact .star
  · exact .star
  · exact .opt
  · exact .star

theorem leaf_all {r : R} {tag : Int} (hL : ∀ i t, L r i t → t = tag) {f : List Sh}
    (h : Derives L g (.stmt r) f) : ∀ x ∈ f, ∃ i, x = .leaf i tag := by
  obtain ⟨i, t, rfl, hl⟩ := derives_stmt h
  intro x hx
  simp only [List.mem_singleton] at hx
  exact ⟨i, by rw [hx, hL i t hl]⟩

variable (hL : ∀ r i t, L r i t → t = r.rootTag)
include hL

theorem spec_shape {f : List Sh} (h : Derives L PR.body (.opt (.rule .specification_part)) f) :
    ∃ k, f = [.inner Tag.PG_SPECIFICATION_PART k] ∧ SpecShape k := by
  rcases derives_opt h with ⟨_, h⟩ | h
  · exact absurd specification_part_sure h
  · obtain ⟨k, hk, rfl⟩ := derives_seq (derives_comb (p := _) rfl h)
    refine ⟨k, rfl, ?_⟩
    obtain ⟨a, b, rfl, h1, hk⟩ := derivesSeq_cons hk
    obtain ⟨c, d, rfl, h2, hk⟩ := derivesSeq_cons hk
    obtain ⟨e, f, rfl, h3, hk⟩ := derivesSeq_cons hk
    obtain ⟨g, f', rfl, h4, hk⟩ := derivesSeq_cons hk
    rw [derivesSeq_nil hk, List.append_nil]
    refine ⟨a, c, e, g, rfl, derivesRep_all (fun f hf => leaf_all (hL _) hf) (derives_star h1),
      derivesRep_all (fun f hf => leaf_all (hL _) hf) (derives_star h2), ?_, derivesRep_all (fun f hf x hx => ?_) (derives_star h4)⟩
    · rcases derives_opt h3 with ⟨_, h⟩ | h
      · exact absurd implicit_part_sure h
      · have h := derives_comb (p := _) rfl h
        exact derives_tagIf h (fun h => nomatch h) (by decide)
    · obtain ⟨k, rfl⟩ := derives_alts (derives_comb (p := _) rfl hf)
      simp only [under, show ¬ Tag.PG_DECLARATION_CONSTRUCT = Tag.HOIST by decide, if_false, List.mem_singleton] at hx
      exact ⟨k, hx⟩

/-- The branches that a procedure is made of. -/
def ProcShape (p0 : T) (e : Int) (L : R → Nat → Int → Prop) (f : List Sh) : Prop :=
  ∃ first spec exec int j, f = first ++ (.inner Tag.PG_SPECIFICATION_PART spec :: (exec ++ (int ++ [.leaf j e]))) ∧
    Derives L PR.body p0 first ∧ SpecShape spec ∧ (exec = [] ∨ ∃ k, exec = [.inner Tag.PG_EXECUTION_PART k]) ∧
    (int = [] ∨ ∃ k, int = [.inner Tag.PG_INTERNAL_SUBPROGRAM_PART k])

theorem proc_shape {r : PR} {tag : Int} {p0 : T} {e : R} {f : List Sh}
    (hr : PR.body r = .comb (.seqIf tag p0 [.opt (.rule .specification_part), .opt (.rule .execution_part),
      .opt (.rule .internal_subprogram_part), .stmt e])) (h : Derives L PR.body (.rule r) f) :
    ∃ k, f = under tag k ∧ ProcShape p0 e.rootTag L k := by
  obtain ⟨k, hk, rfl⟩ := derives_seqIf (derives_comb hr h)
  refine ⟨k, rfl, ?_⟩
  obtain ⟨a, b, rfl, h1, hk⟩ := derivesSeq_cons hk
  obtain ⟨c, d, rfl, h2, hk⟩ := derivesSeq_cons hk
  obtain ⟨e', f, rfl, h3, hk⟩ := derivesSeq_cons hk
  obtain ⟨g, f', rfl, h4, hk⟩ := derivesSeq_cons hk
  obtain ⟨g', f'', rfl, h5, hk⟩ := derivesSeq_cons hk
  rw [derivesSeq_nil hk, List.append_nil]
  obtain ⟨k, rfl, hs⟩ := spec_shape hL h2
  obtain ⟨j, t, rfl, h6⟩ := derives_stmt h5
  rw [hL _ _ _ h6]
  refine ⟨a, k, e', g, j, rfl, h1, hs, ?_, ?_⟩
  · rcases derives_opt h3 with ⟨h, _⟩ | h
    · exact .inl h
    · obtain ⟨k, _, rfl⟩ := derives_seqIf (derives_comb (p := _) rfl h)
      exact .inr ⟨k, rfl⟩
  · rcases derives_opt h4 with ⟨h, _⟩ | h
    · exact .inl h
    · obtain ⟨k, _, rfl⟩ := derives_seqIf (derives_comb (p := _) rfl h)
      exact .inr ⟨k, rfl⟩

omit hL

/-! ### From shapes to nodes -/

theorem erase_leaf {k : PNode} {i : Nat} {t : Int} (h : erase k = .leaf i t) : k.tag = t ∧ k.stmt = some i := by
  obtain ⟨t', r, i', ks⟩ := k
  cases i' with
  | none => rw [erase] at h; cases h
  | some i' => rw [erase] at h; injection h with h1 h2; subst h1 h2; exact ⟨rfl, rfl⟩

theorem erase_inner {k : PNode} {t : Int} {f : List Sh} (h : erase k = .inner t f) :
    k.tag = t ∧ k.stmt = none ∧ eraseAll k.kids = f := by
  obtain ⟨t', r, i', ks⟩ := k
  cases i' with
  | some i' => rw [erase] at h; cases h
  | none => rw [erase] at h; injection h with h1 h2; exact ⟨h1, rfl, h2⟩

theorem eraseAll_split {ks : List PNode} {a b : List Sh} (h : eraseAll ks = a ++ b) :
    ∃ x y, ks = x ++ y ∧ eraseAll x = a ∧ eraseAll y = b := by
  rw [eraseAll_map] at h
  obtain ⟨x, y, h1, h2, h3⟩ := List.map_eq_append_iff.mp h
  exact ⟨x, y, h1, by rw [eraseAll_map]; exact h2, by rw [eraseAll_map]; exact h3⟩

theorem eraseAll_cons {ks : List PNode} {a : Sh} {b : List Sh} (h : eraseAll ks = a :: b) :
    ∃ x y, ks = x :: y ∧ erase x = a ∧ eraseAll y = b := by
  cases ks with
  | nil => cases h
  | cons x y => rw [eraseAll] at h; injection h with h1 h2; exact ⟨x, y, rfl, h1, h2⟩

theorem eraseAll_nil {ks : List PNode} (h : eraseAll ks = []) : ks = [] := by
  cases ks with
  | nil => rfl
  | cons x y => cases h

theorem eraseAll_tags {ks : List PNode} {f : List Sh} {tag : Int} (h : eraseAll ks = f)
    (hf : ∀ x ∈ f, (∃ i, x = .leaf i tag) ∨ ∃ k, x = .inner tag k) : ∀ k ∈ ks, k.tag = tag := by
  intro k hk
  rw [eraseAll_map] at h
  have hm : erase k ∈ f := by rw [← h]; exact List.mem_map.mpr ⟨k, hk, rfl⟩
  rcases hf _ hm with ⟨i, h⟩ | ⟨f, h⟩
  · exact (erase_leaf h).1
  · exact (erase_inner h).1

theorem treesOk_mem {ks : List PNode} (h : TreesOk ks) {k : PNode} (hk : k ∈ ks) : TreeOk k := by
  induction ks with
  | nil => cases hk
  | cons x ks ih =>
    rw [TreesOk] at h
    rcases List.mem_cons.mp hk with rfl | hk
    · exact h.2.1
    · exact ih h.2.2 hk

theorem treeOk_kids {t : PNode} (h : TreeOk t) : TreesOk t.kids := by
  obtain ⟨a, b, c, d⟩ := t
  rw [TreeOk] at h
  exact h.2.2

theorem treeOk_leaf {t : PNode} (h : TreeOk t) {i : Nat} (hi : t.stmt = some i) : t.kids = [] := by
  obtain ⟨a, b, c, d⟩ := t
  rw [TreeOk] at h
  cases hi
  exact h.2.1 rfl

/-- A sorted list of regions from blocks with one region each. -/
theorem pairwise_block {l m : List PNode} {i : Nat} (h1 : ∀ k ∈ l, regionOfTag k.tag = i)
    (h2 : (m.map (fun k => regionOfTag k.tag)).Pairwise (· ≤ ·)) (h3 : ∀ k ∈ m, i ≤ regionOfTag k.tag) :
    ((l ++ m).map (fun k => regionOfTag k.tag)).Pairwise (· ≤ ·) := by
  rw [List.map_append, List.pairwise_append]
  refine ⟨?_, h2, ?_⟩
  · rw [List.pairwise_map]
    induction l with
    | nil => simp
    | cons a l ih =>
      refine List.pairwise_cons.mpr ⟨fun b hb => ?_, ih (fun k hk => h1 k (by simp [hk]))⟩
      rw [h1 a (by simp), h1 b (by simp [hb])]
  · intro a ha b hb
    obtain ⟨a, ha', rfl⟩ := List.mem_map.mp ha
    obtain ⟨b, hb', rfl⟩ := List.mem_map.mp hb
    rw [h1 a ha']
    exact h3 b hb'

/-- The statement that begins each kind of procedure. -/
def beginPairs : List (Int × Int) := [(Tag.PG_FUNCTION_SUBPROGRAM, Tag.SG_FUNCTION_STMT), (Tag.PG_SUBROUTINE_SUBPROGRAM, Tag.SG_SUBROUTINE_STMT),
  (Tag.PG_MAIN_PROGRAM, Tag.SG_PROGRAM_STMT), (Tag.PG_SEPARATE_MODULE_SUBPROGRAM, Tag.SG_MP_SUBPROGRAM_STMT)]

/-- The statement that ends each kind of procedure. -/
def endPairs : List (Int × Int) := [(Tag.PG_FUNCTION_SUBPROGRAM, Tag.SG_END_FUNCTION_STMT), (Tag.PG_SUBROUTINE_SUBPROGRAM, Tag.SG_END_SUBROUTINE_STMT),
  (Tag.PG_MAIN_PROGRAM, Tag.SG_END_PROGRAM_STMT), (Tag.PG_SEPARATE_MODULE_SUBPROGRAM, Tag.SG_END_MP_SUBPROGRAM_STMT)]

/-- What is known of the first branch or branches. -/
def FirstOk (t : PNode) (first : List PNode) : Prop :=
  (first = [] ∧ t.tag = Tag.PG_MAIN_PROGRAM) ∨
    ∃ f i, first = [f] ∧ f.stmt = some i ∧
      f.tag ∈ [Tag.SG_FUNCTION_STMT, Tag.SG_SUBROUTINE_STMT, Tag.SG_PROGRAM_STMT, Tag.SG_MP_SUBPROGRAM_STMT] ∧
      (t.tag, f.tag) ∈ beginPairs

theorem beginPairs_main {a b : Int} (h : (a, b) ∈ beginPairs) (ha : a = Tag.PG_MAIN_PROGRAM) : b = Tag.SG_PROGRAM_STMT := by
  subst ha
  simp only [beginPairs, List.mem_cons, Prod.mk.injEq, List.not_mem_nil, or_false] at h
  rcases h with ⟨h, _⟩ | ⟨h, _⟩ | ⟨_, h⟩ | ⟨h, _⟩
  · exact absurd h (by decide)
  · exact absurd h (by decide)
  · exact h
  · exact absurd h (by decide)

theorem flat_other {l : List PNode} (h : ∀ k ∈ l, k.tag ≠ Tag.PG_SPECIFICATION_PART) :
    l.flatMap (fun k => if k.tag = Tag.PG_SPECIFICATION_PART then k.kids else [k]) = l := by
  induction l with
  | nil => rfl
  | cons a l ih => rw [List.flatMap_cons, if_neg (h a (by simp)), ih (fun k hk => h k (by simp [hk]))]; rfl

theorem isProc_of {t : PNode} {p0 : T} {e : Int} (ht : TreeOk t)
    (hkind : t.tag ∈ procTags)
    (he : e ∈ [Tag.SG_END_FUNCTION_STMT, Tag.SG_END_SUBROUTINE_STMT, Tag.SG_END_PROGRAM_STMT, Tag.SG_END_MP_SUBPROGRAM_STMT])
    (hs : ProcShape p0 e L (eraseAll t.kids)) (hf : ∀ first, Derives L PR.body p0 (eraseAll first) → FirstOk t first) :
    IsProc t ∧ ∃ l rest j, regionNodes t = rest ++ [l] ∧ l.stmt = some j ∧ regionOfTag l.tag = 7 ∧
      (t.tag ≠ Tag.PG_MAIN_PROGRAM → ∃ f i rest', rest = f :: rest' ∧ f.stmt = some i ∧ regionOfTag f.tag = 0) ∧
      ∀ k ∈ rest, regionOfTag k.tag ≠ 7 := by
  obtain ⟨first, spec, exec, int, j, h1, h2, ⟨uses, imports, impl, decls, rfl, hu, hi, ⟨ik, rfl⟩, hd⟩, hx, hn⟩ := hs
  obtain ⟨first, ks1, k1, rfl, e1⟩ := eraseAll_split h1
  obtain ⟨sp, ks2, rfl, hsp, e2⟩ := eraseAll_cons e1
  obtain ⟨exec, ks3, rfl, rfl, e3⟩ := eraseAll_split e2
  obtain ⟨int, ks4, rfl, rfl, e4⟩ := eraseAll_split e3
  obtain ⟨last, ks5, rfl, hl, e5⟩ := eraseAll_cons e4
  rw [eraseAll_nil e5] at k1
  obtain ⟨sp1, sp2, sp3⟩ := erase_inner hsp
  obtain ⟨uses, ks6, sk, rfl, e6⟩ := eraseAll_split sp3
  obtain ⟨imports, ks7, rfl, rfl, e7⟩ := eraseAll_split e6
  obtain ⟨im, decls, rfl, him, rfl⟩ := eraseAll_cons e7
  have hu := eraseAll_tags rfl (fun x hx => .inl (hu x hx))
  have hi := eraseAll_tags rfl (fun x hx => .inl (hi x hx))
  have hd := eraseAll_tags rfl (fun x hx => .inr (hd x hx))
  have him := (erase_inner him).1
  have hl1 := (erase_leaf hl).1
  have hl2 := (erase_leaf hl).2
  have len : ∀ (l : List PNode) (tag : Int), (eraseAll l = [] ∨ ∃ k, eraseAll l = [.inner tag k]) →
      (∀ k ∈ l, k.tag = tag) ∧ (l = [] ∨ ∃ k, l = [k]) := by
    intro l tag h
    refine ⟨eraseAll_tags rfl (by rcases h with h | ⟨f, h⟩ <;> rw [h] <;> simp), ?_⟩
    rcases h with h | ⟨f, h⟩
    · exact .inl (eraseAll_nil h)
    · obtain ⟨x, y, rfl, _, h⟩ := eraseAll_cons h
      rw [eraseAll_nil h]
      exact .inr ⟨x, rfl⟩
  obtain ⟨hx1, hx2⟩ := len _ _ hx
  obtain ⟨hn1, hn2⟩ := len _ _ hn
  have hf := hf first h2
  have hf0 : ∀ k ∈ first, regionOfTag k.tag = 0 ∧ k.tag ≠ Tag.PG_SPECIFICATION_PART := by
    intro k hk
    rcases hf with ⟨rfl, _⟩ | ⟨f, i, rfl, _, hf, _⟩
    · cases hk
    · simp only [List.mem_singleton] at hk
      subst hk
      simp only [List.mem_cons, List.not_mem_nil, or_false] at hf
      rcases hf with hf | hf | hf | hf <;> rw [hf] <;> decide
  have hl7 : regionOfTag last.tag = 7 ∧ last.tag ≠ Tag.PG_SPECIFICATION_PART := by
    rw [hl1]
    simp only [List.mem_cons, List.not_mem_nil, or_false] at he
    rcases he with hf | hf | hf | hf <;> rw [hf] <;> decide
  have hr : regionNodes t = (first ++ (uses ++ (imports ++ ([im] ++ (decls ++ (exec ++ int)))))) ++ [last] := by
    rw [regionNodes, k1, List.flatMap_append, List.flatMap_cons, if_pos sp1, sk, List.flatMap_append, List.flatMap_append,
      flat_other (fun k hk => (hf0 k hk).2), flat_other (fun k hk => by rw [hx1 k hk]; decide),
      flat_other (fun k hk => by rw [hn1 k hk]; decide), flat_other (l := [last]) (fun k hk => by
        simp only [List.mem_singleton] at hk; rw [hk]; exact hl7.2)]
    simp
  have htr : TreesOk t.kids := treeOk_kids ht
  have hspk : TreesOk sp.kids := treeOk_kids (treesOk_mem htr (by rw [k1]; simp))
  refine ⟨⟨hkind, ⟨first, sp :: (exec ++ int), last, by rw [k1]; simp, ?_, ?_, ?_, by rw [hl1]; exact he⟩, ?_, ?_⟩, last,
    _, j, hr, hl2, hl7.1, ?_, ?_⟩
  · rcases hf with h | ⟨f, i, h1, h2, h3, h4⟩
    · exact .inl h
    · refine .inr ⟨f, h1, treeOk_leaf (treesOk_mem htr (by rw [k1, h1]; simp)) h2, h3, beginPairs_main h4⟩
  · intro p hp
    rcases List.mem_cons.mp hp with rfl | hp
    · refine .inl ⟨sp1, by rw [sk]; simp, sp2, ?_, ?_⟩
      · intro k hk
        rw [sk] at hk
        simp only [List.mem_append, List.mem_cons] at hk
        rcases hk with hk | hk | rfl | hk
        · rw [hu k hk]; decide
        · rw [hi k hk]; decide
        · rw [him]; decide
        · rw [hd k hk]; decide
      · rw [sk]
        have nu : ∀ k ∈ uses, k.tag ≠ Tag.PG_IMPLICIT_PART := fun k hk => by rw [hu k hk]; decide
        have ni : ∀ k ∈ imports, k.tag ≠ Tag.PG_IMPLICIT_PART := fun k hk => by rw [hi k hk]; decide
        have nd : ∀ k ∈ decls, k.tag ≠ Tag.PG_IMPLICIT_PART := fun k hk => by rw [hd k hk]; decide
        have base : ∀ (l : List PNode), (∀ k ∈ l, k.tag ≠ Tag.PG_IMPLICIT_PART) →
            l.Pairwise (fun a b => ¬ (a.tag = Tag.PG_IMPLICIT_PART ∧ b.tag = Tag.PG_IMPLICIT_PART)) :=
          fun l h => List.Pairwise.imp_of_mem (R := fun _ _ => True) (fun ha _ _ hh => h _ ha hh.1) (List.pairwise_of_forall (fun _ _ => trivial))
        refine List.pairwise_append.mpr ⟨base _ nu, List.pairwise_append.mpr ⟨base _ ni, List.pairwise_cons.mpr ⟨?_, base _ nd⟩, ?_⟩, ?_⟩
        · exact fun b hb hh => nd b hb hh.2
        · exact fun a ha b _ hh => ni a ha hh.1
        · exact fun a ha b _ hh => nu a ha hh.1
    · rcases List.mem_append.mp hp with hp | hp
      · exact .inr (by rw [hx1 p hp]; decide)
      · exact .inr (by rw [hn1 p hp]; decide)
  · have t1 : exec.map (·.tag) = [] ∨ exec.map (·.tag) = [Tag.PG_EXECUTION_PART] := by
      rcases hx2 with rfl | ⟨k, rfl⟩
      · exact .inl rfl
      · exact .inr (by simp [hx1 k (by simp)])
    have t2 : int.map (·.tag) = [] ∨ int.map (·.tag) = [Tag.PG_INTERNAL_SUBPROGRAM_PART] := by
      rcases hn2 with rfl | ⟨k, rfl⟩
      · exact .inl rfl
      · exact .inr (by simp [hn1 k (by simp)])
    rw [List.map_cons, List.map_append, sp1]
    rcases t1 with h | h <;> rcases t2 with h' | h' <;> rw [h, h'] <;> decide
  · rw [hr]
    simp only [List.append_assoc]
    have ru : ∀ k ∈ uses, regionOfTag k.tag = 1 := fun k hk => by rw [hu k hk]; rfl
    have ri : ∀ k ∈ imports, regionOfTag k.tag = 2 := fun k hk => by rw [hi k hk]; rfl
    have rm : ∀ k ∈ [im], regionOfTag k.tag = 3 := fun k hk => by simp only [List.mem_singleton] at hk; rw [hk, him]; rfl
    have rd : ∀ k ∈ decls, regionOfTag k.tag = 4 := fun k hk => by rw [hd k hk]; rfl
    have rx : ∀ k ∈ exec, regionOfTag k.tag = 5 := fun k hk => by rw [hx1 k hk]; rfl
    have rn : ∀ k ∈ int, regionOfTag k.tag = 6 := fun k hk => by rw [hn1 k hk]; rfl
    have rl : ∀ k ∈ [last], regionOfTag k.tag = 7 := fun k hk => by simp only [List.mem_singleton] at hk; rw [hk]; exact hl7.1
    have r0 : ∀ k ∈ first, regionOfTag k.tag = 0 := fun k hk => (hf0 k hk).1
    refine pairwise_block r0 (pairwise_block ru (pairwise_block ri (pairwise_block rm (pairwise_block rd (pairwise_block rx
      (pairwise_block rn (by simp) ?_) ?_) ?_) ?_) ?_) ?_) ?_
    all_goals
      intro k hk
      have a1 := ru k; have a2 := ri k; have a3 := rm k; have a4 := rd k; have a5 := rx k; have a6 := rn k; have a7 := rl k
      clear * - hk a1 a2 a3 a4 a5 a6 a7
      try simp only [List.mem_append] at hk
      grind
  · intro k hk
    rw [hr] at hk
    refine TreeOk.range ?_
    simp only [List.mem_append] at hk
    have top : k ∈ t.kids → TreeOk k := treesOk_mem htr
    have low : k ∈ sp.kids → TreeOk k := treesOk_mem hspk
    rw [k1] at top
    rw [sk] at low
    simp only [List.mem_append, List.mem_cons, List.not_mem_nil, or_false] at top low hk
    rcases hk with (hk | hk | hk | hk | hk | hk | hk) | hk
    · exact top (by simp [hk])
    · exact low (by simp [hk])
    · exact low (by simp [hk])
    · exact low (by simp [hk])
    · exact low (by simp [hk])
    · exact top (by simp [hk])
    · exact top (by simp [hk])
    · exact top (by simp [hk])
  · intro ht
    rcases hf with ⟨_, h⟩ | ⟨f, i, rfl, h2, h3, h4⟩
    · exact absurd h ht
    · exact ⟨f, i, _, rfl, h2, (hf0 f (by simp)).1⟩
  · intro k hk h7
    simp only [List.mem_append, List.mem_singleton] at hk
    rcases hk with hk | hk | hk | hk | hk | hk | hk
    · rw [(hf0 k hk).1] at h7; cases h7
    · rw [hu k hk] at h7; cases h7
    · rw [hi k hk] at h7; cases h7
    · rw [hk, him] at h7; cases h7
    · rw [hd k hk] at h7; cases h7
    · rw [hx1 k hk] at h7; cases h7
    · rw [hn1 k hk] at h7; cases h7

/-! ### The procedures in a tree -/

mutual
/-- All the shapes in a shape. -/
def shs : Sh → List Sh
  | .leaf i t => [.leaf i t]
  | .inner t f => .inner t f :: shsAll f
def shsAll : List Sh → List Sh
  | [] => []
  | x :: f => shs x ++ shsAll f
end

theorem shsAll_append (a b : List Sh) : shsAll (a ++ b) = shsAll a ++ shsAll b := by
  induction a with
  | nil => rfl
  | cons x a ih => simp [shsAll, ih]

mutual
theorem erase_shs : ∀ (t : PNode), TreeOk t → ∀ n ∈ nodesOf t, TreeOk n ∧ erase n ∈ shs (erase t)
  | .node t r i ks, ht, n, hn => by
    rw [nodesOf] at hn
    rcases List.mem_cons.mp hn with rfl | hm
    · refine ⟨ht, ?_⟩
      cases i <;> simp [erase, shs]
    · rw [TreeOk] at ht
      cases i with
      | some i => rw [ht.2.1 rfl, nodesOfAll] at hm; cases hm
      | none =>
        have := eraseAll_shs ks ht.2.2 n hm
        refine ⟨this.1, ?_⟩
        rw [erase, shs]
        exact List.mem_cons_of_mem _ this.2
theorem eraseAll_shs : ∀ (ks : List PNode), TreesOk ks → ∀ n ∈ nodesOfAll ks, TreeOk n ∧ erase n ∈ shsAll (eraseAll ks)
  | [], _, n, hn => by cases hn
  | k :: ks, ht, n, hn => by
    rw [nodesOfAll] at hn
    rw [TreesOk] at ht
    rw [eraseAll, shsAll]
    rcases List.mem_append.mp hn with hn | hn
    · have := erase_shs k ht.2.1 n hn
      exact ⟨this.1, List.mem_append_left _ this.2⟩
    · have := eraseAll_shs ks ht.2.2 n hn
      exact ⟨this.1, List.mem_append_right _ this.2⟩
end

mutual
/-- No tag of a procedure is given in the term. -/
def clean : T → Bool
  | .alts tag ps => decide (tag ∉ procTags) && cleanAll ps
  | .endStream => true
  | .opt p => clean p
  | .optSeq tag ps => decide (tag ∉ procTags) && cleanAll ps
  | .plus tag p => decide (tag ∉ procTags) && clean p
  | .seq tag ps => decide (tag ∉ procTags) && cleanAll ps
  | .seqIf tag p ps => decide (tag ∉ procTags) && clean p && cleanAll ps
  | .star p => clean p
  | .stmt _ => true
  | .tagIf tag p => decide (tag ∉ procTags) && clean p
  | .rule _ => true
def cleanAll : List T → Bool
  | [] => true
  | p :: ps => clean p && cleanAll ps
end

/-- The rules for procedures. -/
def procRule (r : PR) : Bool :=
  match r with
  | .function_subprogram => true
  | .subroutine_subprogram => true
  | .main_program => true
  | .separate_module_subprogram => true
  | _ => false

/-- The body of a rule, as far as procedures go. -/
def procFine (r : PR) : Bool :=
  match PR.body r with
  | .comb p =>
    if procRule r then
      match p with
      | .seqIf _ q qs => clean q && cleanAll qs
      | _ => false
    else clean p
  | .exec p => clean p
  | .legacyDo => true

theorem procFine_all (r : PR) : procFine r = true := by cases r <;> decide

theorem cleanAll_mem {ps : List T} (h : cleanAll ps = true) {p : T} (hp : p ∈ ps) : clean p = true := by
  induction ps with
  | nil => cases hp
  | cons q ps ih =>
    simp only [cleanAll, Bool.and_eq_true] at h
    rcases List.mem_cons.mp hp with rfl | hp
    · exact h.1
    · exact ih h.2 hp

theorem cleanAll_append {a b : List T} (h : cleanAll (a ++ b) = true) : cleanAll a = true := by
  induction a with
  | nil => rfl
  | cons q a ih =>
    simp only [List.cons_append, cleanAll, Bool.and_eq_true] at h ⊢
    exact ⟨h.1, ih h.2⟩

/-- A node with the tag of a procedure comes from a rule for procedures, and a leaf from a statement. -/
def FromRule (L : R → Nat → Int → Prop) : Sh → Prop
  | .leaf i t => ∃ r, L r i t
  | .inner tag k => tag ∈ procTags →
    ∃ r p ps, procRule r = true ∧ PR.body r = .comb (.seqIf tag p ps) ∧ DerivesSeq L PR.body (p :: ps) k

def Procs (L : R → Nat → Int → Prop) (f : List Sh) : Prop := ∀ y ∈ shsAll f, FromRule L y

theorem procs_append {a b : List Sh} (h1 : Procs L a) (h2 : Procs L b) : Procs L (a ++ b) := by
  intro y hm
  rw [shsAll_append] at hm
  rcases List.mem_append.mp hm with hm | hm
  · exact h1 y hm
  · exact h2 y hm

theorem procs_nil : Procs L [] := by intro y hm; cases hm

theorem procs_leaf {r : R} {i : Nat} {t : Int} (h : L r i t) : Procs L [.leaf i t] := by
  intro y hm
  simp only [shsAll, shs, List.append_nil, List.mem_singleton] at hm
  subst hm
  exact ⟨r, h⟩

theorem procs_inner' {tag : Int} {f : List Sh} (h : Procs L f) (ht : FromRule L (.inner tag f)) : Procs L [.inner tag f] := by
  intro y hm
  simp only [shsAll, shs, List.append_nil] at hm
  rcases List.mem_cons.mp hm with rfl | hm
  · exact ht
  · exact h y hm

theorem procs_inner {tag : Int} {f : List Sh} (h : Procs L f) (ht : tag ∉ procTags) : Procs L [.inner tag f] :=
  procs_inner' h (fun hk => absurd hk ht)

theorem procs_under {tag : Int} {f : List Sh} (h : Procs L f) (ht : tag ∉ procTags) : Procs L (under tag f) := by
  rw [under]
  split
  · exact h
  · exact procs_inner h ht

mutual
theorem derives_procs : ∀ {p : T} {f : List Sh}, Derives L PR.body p f →
    (clean p = true ∨ ∃ r tag q qs, procRule r = true ∧ PR.body r = .comb p ∧ p = .seqIf tag q qs ∧ clean q = true ∧ cleanAll qs = true) →
    Procs L f
  | _, _, .alts hm h, hc => by
    rcases hc with hc | ⟨_, _, _, _, _, _, hc, _⟩
    · simp only [clean, Bool.and_eq_true, decide_eq_true_eq] at hc
      exact procs_under (derives_procs h (.inl (cleanAll_mem hc.2 hm))) hc.1
    · cases hc
  | _, _, .endStream, _ => procs_nil
  | _, _, .optNo _, _ => procs_nil
  | _, _, .opt h, hc => by
    rcases hc with hc | ⟨_, _, _, _, _, _, hc, _⟩
    · exact derives_procs h (.inl (by simpa [clean] using hc))
    · cases hc
  | _, _, .optSeq h, hc => by
    rcases hc with hc | ⟨_, _, _, _, _, _, hc, _⟩
    · simp only [clean, Bool.and_eq_true, decide_eq_true_eq] at hc
      exact procs_under (derivesSeq_procs h (cleanAll_append hc.2)) hc.1
    · cases hc
  | _, _, .plus h h', hc => by
    rcases hc with hc | ⟨_, _, _, _, _, _, hc, _⟩
    · simp only [clean, Bool.and_eq_true, decide_eq_true_eq] at hc
      exact procs_under (procs_append (derives_procs h (.inl hc.2)) (derivesRep_procs h' hc.2)) hc.1
    · cases hc
  | _, _, .seq h, hc => by
    rcases hc with hc | ⟨_, _, _, _, _, _, hc, _⟩
    · simp only [clean, Bool.and_eq_true, decide_eq_true_eq] at hc
      exact procs_under (derivesSeq_procs h hc.2) hc.1
    · cases hc
  | .seqIf tag p ps, _, .seqIf (f := f) h, hc => by
    rcases hc with hc | ⟨r, t', q, qs, hr, hb, he, hq, hqs⟩
    · simp only [clean, Bool.and_eq_true, decide_eq_true_eq] at hc
      exact procs_under (derivesSeq_procs h (by simp [cleanAll, hc.1.2, hc.2])) hc.1.1
    · injection he with h1 h2 h3
      subst h1 h2 h3
      have ih := derivesSeq_procs h (by simp [cleanAll, hq, hqs])
      rw [under]
      split
      · exact ih
      · exact procs_inner' ih (fun _ => ⟨r, _, _, hr, hb, h⟩)
  | _, _, .star h, hc => by
    rcases hc with hc | ⟨_, _, _, _, _, _, hc, _⟩
    · exact derivesRep_procs h (by simpa [clean] using hc)
    · cases hc
  | _, _, .stmt h, _ => procs_leaf h
  | _, _, .tagNo _ h, _ => procs_nil
  | _, _, .tagIf h, hc => by
    rcases hc with hc | ⟨_, _, _, _, _, _, hc, _⟩
    · simp only [clean, Bool.and_eq_true, decide_eq_true_eq] at hc
      exact procs_under (derives_procs h (.inl hc.2)) hc.1
    · cases hc
  | .rule r, _, .comb (p := p) hr h, _ => by
    refine derives_procs h ?_
    have := procFine_all r
    rw [procFine, hr] at this
    simp only at this
    by_cases hp : procRule r = true
    · rw [if_pos hp] at this
      cases p with
      | seqIf tag q qs =>
        simp only [Bool.and_eq_true] at this
        exact .inr ⟨r, tag, q, qs, hp, hr, rfl, this.1, this.2⟩
      | _ => cases this
    · rw [if_neg hp] at this
      exact .inl this
  | .rule r, _, .exec (p := p) hr h, _ => by
    refine derives_procs h (.inl ?_)
    have := procFine_all r
    rw [procFine, hr] at this
    exact this
  | _, _, .doEnd _ h1 h h2, _ =>
    procs_inner (procs_append (procs_leaf h1) (procs_append (procs_inner (derivesRep_procs h rfl) (by decide))
      (h2.elim procs_leaf procs_leaf))) (by decide)
  | _, _, .doAction _ h1 h h2 hq, _ => by
    refine procs_inner (procs_inner (procs_append (procs_leaf h1) (procs_append (procs_inner (derivesRep_procs h rfl) (by decide))
      (procs_inner (procs_leaf h2) ?_))) ?_) (by decide)
    all_goals
      simp only [List.mem_cons, List.not_mem_nil, or_false] at hq
      rcases hq with rfl | rfl | rfl <;> decide
theorem derivesSeq_procs : ∀ {ps : List T} {f : List Sh}, DerivesSeq L PR.body ps f → cleanAll ps = true → Procs L f
  | _, _, .nil, _ => procs_nil
  | _, _, .cons h h', hc => by
    simp only [cleanAll, Bool.and_eq_true] at hc
    exact procs_append (derives_procs h (.inl hc.1)) (derivesSeq_procs h' hc.2)
theorem derivesRep_procs : ∀ {p : T} {f : List Sh}, DerivesRep L PR.body p f → clean p = true → Procs L f
  | _, _, .nil, _ => procs_nil
  | _, _, .cons h h', hc => procs_append (derives_procs h (.inl hc)) (derivesRep_procs h' hc)
end

theorem procRule_cases (hL : ∀ r i t, L r i t → t = r.rootTag) {r : PR} (h : procRule r = true) :
    ∃ tag p0 e, PR.body r = .comb (.seqIf tag p0 [.opt (.rule .specification_part), .opt (.rule .execution_part),
        .opt (.rule .internal_subprogram_part), .stmt e]) ∧ tag ≠ Tag.HOIST ∧
      e.rootTag ∈ [Tag.SG_END_FUNCTION_STMT, Tag.SG_END_SUBROUTINE_STMT, Tag.SG_END_PROGRAM_STMT, Tag.SG_END_MP_SUBPROGRAM_STMT] ∧ (tag, e.rootTag) ∈ endPairs ∧
      ∀ (t : PNode) first, t.tag = tag → Derives L PR.body p0 (eraseAll first) → FirstOk t first := by
  have one : ∀ {r : R} {first : List PNode} {t : PNode}, Derives L PR.body (.stmt r) (eraseAll first) →
      r.rootTag ∈ [Tag.SG_FUNCTION_STMT, Tag.SG_SUBROUTINE_STMT, Tag.SG_PROGRAM_STMT, Tag.SG_MP_SUBPROGRAM_STMT] →
      (t.tag, r.rootTag) ∈ beginPairs → FirstOk t first := by
    intro r first t hd h1 h2
    obtain ⟨i, tg, hf, hl⟩ := derives_stmt hd
    rw [hL _ _ _ hl] at hf
    obtain ⟨f, y, rfl, hf1, hf2⟩ := eraseAll_cons hf
    rw [eraseAll_nil hf2]
    obtain ⟨e1, e2⟩ := erase_leaf hf1
    exact .inr ⟨f, i, rfl, e2, by rw [e1]; exact h1, by rw [e1]; exact h2⟩
  cases r <;> try cases h
  · refine ⟨_, _, _, rfl, by decide, by decide +kernel, by decide +kernel, fun t first ht hd => one hd (by decide +kernel) ?_⟩
    rw [ht]; decide +kernel
  · refine ⟨_, _, _, rfl, by decide, by decide +kernel, by decide +kernel, fun t first ht hd => ?_⟩
    rcases derives_opt hd with ⟨h, _⟩ | h
    · exact .inl ⟨eraseAll_nil h, ht⟩
    · exact one h (by decide +kernel) (by rw [ht]; decide +kernel)
  · refine ⟨_, _, _, rfl, by decide, by decide +kernel, by decide +kernel, fun t first ht hd => one hd (by decide +kernel) ?_⟩
    rw [ht]; decide +kernel
  · refine ⟨_, _, _, rfl, by decide, by decide +kernel, by decide +kernel, fun t first ht hd => one hd (by decide +kernel) ?_⟩
    rw [ht]; decide +kernel

/-! ### The statements of a procedure -/

theorem join_append {a b : List Nat} (h : (a ++ b).Nodup) : join a b = a ++ b := by
  induction a with
  | nil => rfl
  | cons x a ih =>
    rw [List.cons_append, List.nodup_cons] at h
    cases a with
    | nil =>
      cases b with
      | nil => rfl
      | cons y b =>
        rw [join, consNew, if_neg]
        · rfl
        · rintro rfl; simp at h
    | cons y a => rw [join, ih h.2]; rfl

theorem squash_flat {ns : List PNode} (h : (ns.flatMap stmtsUnder).Nodup) : squash (ns.flatMap leavesOf) = ns.flatMap stmtsUnder := by
  induction ns with
  | nil => rfl
  | cons n ns ih =>
    rw [List.flatMap_cons] at h ⊢
    rw [List.flatMap_cons, squash_append, ih (List.nodup_append.mp h).2.1]
    exact join_append h

theorem stmtsOfAll_flat (ks : List PNode) : stmtsOfAll ks = ks.flatMap leavesOf := by
  induction ks with
  | nil => rfl
  | cons k ks ih => rw [stmtsOfAll, ih, List.flatMap_cons]

theorem region_leaves {t : PNode} (h : IsProc t) (hs : t.stmt = none) : leavesOf t = (regionNodes t).flatMap leavesOf := by
  obtain ⟨first, parts, last, hk, hf, hp, _, hl⟩ := h.branches
  have key : ∀ k ∈ t.kids, k.tag = Tag.PG_SPECIFICATION_PART → k.stmt = none := by
    intro k hm ht
    rw [hk] at hm
    simp only [List.mem_append, List.mem_singleton] at hm
    rcases hm with (hm | hm) | hm
    · rcases hf with ⟨rfl, _⟩ | ⟨f, rfl, _, hf, _⟩
      · cases hm
      · simp only [List.mem_singleton] at hm
        subst hm
        rw [ht] at hf
        exact absurd hf (by decide)
    · rcases hp k hm with h | h
      · exact h.2.2.1
      · rw [ht] at h
        exact absurd h (by decide)
    · subst hm
      rw [ht] at hl
      exact absurd hl (by decide)
  obtain ⟨a, b, c, ks⟩ := t
  cases hs
  rw [leavesOf, stmtsOfAll_flat, regionNodes, List.flatMap_assoc]
  rw [List.flatMap_def, List.flatMap_def]
  refine congrArg _ (List.map_congr_left (fun k hk => ?_))
  split
  · rename_i ht
    have := key k hk ht
    obtain ⟨a', b', c', ks'⟩ := k
    cases this
    rw [leavesOf, stmtsOfAll_flat]
    rfl
  · simp

end Proc
end FLPR
