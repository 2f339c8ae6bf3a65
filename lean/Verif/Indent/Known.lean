import Verif.Indent.TreeLemmas
import Verif.Program.ShapeProps
/-!
# The trees of the program parsers are known to the indent table
-/

namespace FLPR
namespace Ind
open Spec PP
open SP (R)

/-- The tag of a node with branches that the table knows. -/
def okTag (tag : Int) : Bool := decide (Tag.PG_000_LB < tag) && decide (tag < Tag.PG_ZZZ_UB)

mutual
def KnownSh : Sh → Prop
  | .leaf _ _ => True
  | .inner tag ks => okTag tag = true ∧ (tag ∈ endedTags → 2 ≤ ks.length) ∧ KnownShs ks
def KnownShs : List Sh → Prop
  | [] => True
  | k :: ks => KnownSh k ∧ KnownShs ks
end

theorem knownShs_append (a b : List Sh) : KnownShs (a ++ b) ↔ KnownShs a ∧ KnownShs b := by
  induction a with
  | nil => simp [KnownShs]
  | cons x a ih => simp [KnownShs, ih, and_assoc]

mutual
theorem known_of_erase : ∀ t : PNode, TreeOk t → KnownSh (erase t) → Known t
  | .node _ _ (some _) ks, hok, _ => by
    rw [TreeOk] at hok
    rw [hok.2.1 rfl]
    simp [Known]
  | .node tag r none [], _, _ => by simp [Known]
  | .node tag r none (k :: ks), hok, h => by
    rw [TreeOk, TreesOk] at hok
    rw [erase, eraseAll, KnownSh, KnownShs] at h
    rw [Known]
    obtain ⟨_, _, _, hok1, hok2⟩ := hok
    obtain ⟨h1, h2, h3, h4⟩ := h
    simp only [okTag, Bool.and_eq_true, decide_eq_true_eq] at h1
    refine ⟨h1, fun he => ?_, known_of_erase k hok1 h3, knownAll_of_erase ks hok2 h4⟩
    rintro rfl
    have := h2 he
    simp [eraseAll] at this
theorem knownAll_of_erase : ∀ ks : List PNode, TreesOk ks → KnownShs (eraseAll ks) → KnownAll ks
  | [], _, _ => by simp [KnownAll]
  | k :: ks, hok, h => by
    rw [TreesOk] at hok
    rw [eraseAll, KnownShs] at h
    rw [KnownAll]
    exact ⟨known_of_erase k hok.2.1 h.1, knownAll_of_erase ks hok.2.2 h.2⟩
end

/-- A tag that a combinator may give. -/
def fineTag (tag : Int) : Bool := tag == Tag.HOIST || (okTag tag && !endedTags.contains tag)

/-- The number of terms that are statements. -/
def stmtTerms : List T → Nat
  | [] => 0
  | .stmt _ :: ps => 1 + stmtTerms ps
  | _ :: ps => stmtTerms ps

mutual
/-- All the tags of a term are known; a construct with a first and a last statement has both. -/
def fine : T → Bool
  | .alts tag ps => fineTag tag && fineAll ps
  | .endStream => true
  | .opt p => fine p
  | .optSeq tag ps => fineTag tag && fineAll ps
  | .plus tag p => fineTag tag && fine p
  | .seq tag ps => fineTag tag && fineAll ps
  | .seqIf tag p ps => (fineTag tag || (okTag tag && decide (2 ≤ stmtTerms (p :: ps)))) && fine p && fineAll ps
  | .star p => fine p
  | .stmt _ => true
  | .tagIf tag p => fineTag tag && fine p
  | .rule _ => true
def fineAll : List T → Bool
  | [] => true
  | p :: ps => fine p && fineAll ps
end

def PBody.fine : PBody → Bool
  | .comb p => Ind.fine p
  | .exec p => Ind.fine p
  | .legacyDo => true

theorem grammar_fine (r : PR) : PBody.fine (PR.body r) = true :=
  PR.forall_of (q := fun r => PBody.fine (PR.body r)) (by decide +kernel) r

theorem fineAll_mem : ∀ {ps : List T} {p : T}, fineAll ps = true → p ∈ ps → fine p = true
  | q :: qs, p, h, hm => by
    rw [fineAll, Bool.and_eq_true] at h
    rcases List.mem_cons.mp hm with rfl | hm
    · exact h.1
    · exact fineAll_mem h.2 hm

theorem fineAll_append : ∀ {ps qs : List T}, fineAll (ps ++ qs) = true → fineAll ps = true
  | [], _, _ => rfl
  | p :: ps, qs, h => by
    rw [List.cons_append, fineAll, Bool.and_eq_true] at h
    rw [fineAll, h.1, fineAll_append h.2]; rfl

theorem known_under {tag : Int} {f : List Sh} (h : fineTag tag = true) (hf : KnownShs f) : KnownShs (under tag f) := by
  unfold under
  split
  · exact hf
  · rename_i hh
    simp only [fineTag, Bool.or_eq_true, beq_iff_eq, hh, false_or, Bool.and_eq_true, Bool.not_eq_true'] at h
    rw [KnownShs, KnownSh, KnownShs]
    refine ⟨⟨h.1, fun he => ?_, hf⟩, trivial⟩
    have := h.2
    rw [List.contains_eq_mem, decide_eq_false_iff_not] at this
    exact absurd he this

theorem stmt_one {L : R → Nat → Int → Prop} {g : PR → PBody} {r : R} {f : List Sh} (h : Derives L g (.stmt r) f) : f.length = 1 := by
  cases h with
  | stmt _ => rfl

theorem stmtTerms_le {L : R → Nat → Int → Prop} {g : PR → PBody} : ∀ {ps : List T} {f : List Sh}, DerivesSeq L g ps f →
    stmtTerms ps ≤ f.length
  | [], _, _ => by simp [stmtTerms]
  | p :: ps, _, .cons (f := f1) (f' := f2) h h' => by
    have ih := stmtTerms_le h'
    rw [List.length_append]
    cases p with
    | stmt r =>
      have := stmt_one h
      rw [stmtTerms]; omega
    | _ => rw [stmtTerms] <;> first | omega | simp

theorem known_seqIf {tag : Int} {f : List Sh} {n : Nat} (h : (fineTag tag || (okTag tag && decide (2 ≤ n))) = true) (hn : n ≤ f.length)
    (hf : KnownShs f) : KnownShs (under tag f) := by
  rw [Bool.or_eq_true] at h
  rcases h with h | h
  · exact known_under h hf
  · simp only [Bool.and_eq_true, decide_eq_true_eq] at h
    unfold under
    split
    · exact hf
    · rw [KnownShs, KnownSh, KnownShs]
      exact ⟨⟨h.1, fun _ => by omega, hf⟩, trivial⟩

section
variable {L : R → Nat → Int → Prop} {g : PR → PBody} (hg : ∀ r, PBody.fine (g r) = true)

set_option linter.unusedSectionVars false
include hg
mutual
theorem derives_known {p : T} {f : List Sh} : Derives L g p f → fine p = true → KnownShs f
  | .alts hm h, hp => by
    rw [fine, Bool.and_eq_true] at hp
    exact known_under hp.1 (derives_known h (fineAll_mem hp.2 hm))
  | .endStream, _ => by simp [KnownShs]
  | .optNo hn, _ => by simp [KnownShs]
  | .opt h, hp => derives_known h (by rw [fine] at hp; exact hp)
  | .optSeq h, hp => by
    rw [fine, Bool.and_eq_true] at hp
    exact known_under hp.1 (derivesSeq_known h (fineAll_append hp.2))
  | .plus h h', hp => by
    rw [fine, Bool.and_eq_true] at hp
    exact known_under hp.1 ((knownShs_append _ _).mpr ⟨derives_known h hp.2, derivesRep_known h' hp.2⟩)
  | .seq h, hp => by
    rw [fine, Bool.and_eq_true] at hp
    exact known_under hp.1 (derivesSeq_known h hp.2)
  | .seqIf h, hp => by
    rw [fine, Bool.and_eq_true, Bool.and_eq_true] at hp
    exact known_seqIf hp.1.1 (stmtTerms_le h) (derivesSeq_known h (by rw [fineAll, hp.1.2, hp.2]; rfl))
  | .star h, hp => derivesRep_known h (by rw [fine] at hp; exact hp)
  | .stmt h, _ => by simp [KnownShs, KnownSh]
  | .tagNo hb h, hp => by
    rw [fine, Bool.and_eq_true] at hp
    exact derives_known h hp.2
  | .tagIf h, hp => by
    rw [fine, Bool.and_eq_true] at hp
    exact known_under hp.1 (derives_known h hp.2)
  | .comb (r := r) hr h, _ => derives_known h (by have := hg r; rw [hr] at this; exact this)
  | .exec (r := r) hr h, _ => derives_known h (by have := hg r; rw [hr] at this; exact this)
  | .doEnd hr h1 h2 h3, _ => by
    have := derivesRep_known h2 rfl
    simp only [KnownShs, KnownSh, and_true, true_and]
    exact ⟨by decide, fun h => absurd h (by decide), by decide, fun h => absurd h (by decide), this⟩
  | .doAction hr h1 h2 h3 hq, _ => by
    have := derivesRep_known h2 rfl
    simp only [KnownShs, KnownSh, and_true, true_and]
    refine ⟨by decide, fun h => absurd h (by decide), ?_⟩
    simp only [List.mem_cons, List.not_mem_nil, or_false] at hq
    rcases hq with rfl | rfl | rfl
    all_goals exact ⟨by decide, fun h => absurd h (by decide), ⟨by decide, fun h => absurd h (by decide), this⟩, by decide,
      fun h => absurd h (by decide)⟩
theorem derivesSeq_known {ps : List T} {f : List Sh} : DerivesSeq L g ps f → fineAll ps = true → KnownShs f
  | .nil, _ => by simp [KnownShs]
  | .cons h h', hp => by
    rw [fineAll, Bool.and_eq_true] at hp
    exact (knownShs_append _ _).mpr ⟨derives_known h hp.1, derivesSeq_known h' hp.2⟩
theorem derivesRep_known {p : T} {f : List Sh} : DerivesRep L g p f → fine p = true → KnownShs f
  | .nil, _ => by simp [KnownShs]
  | .cons h h', hp => (knownShs_append _ _).mpr ⟨derives_known h hp, derivesRep_known h' hp⟩
end
end

/-- The tree of a program is known to the table. -/
theorem program_known (x : SP.Exts) (hx : x.Forward) (hn : NeedToken x) (s : PState) (hs : Full s) (o : POut) (t : PNode)
    (h : PReturns x .program s (.ok o)) (ho : o.ok = true) (ht : o.tree = some t) : Known t := by
  have hd := C65_derives x hx hn .program s hs o h ho
  obtain ⟨t', ht', htag, _⟩ := C39_program_partial x hx hn s hs o h ho
  rw [ht] at ht'
  injection ht' with ht'
  subst ht'
  have hk := derives_known grammar_fine hd rfl
  rw [ht, branchesOf, if_neg (by rw [htag]; decide)] at hk
  rw [KnownShs, KnownShs] at hk
  exact known_of_erase t ((C39_tree_partial x hx hn .program s hs o h).2.2.2 t ht).1 hk.1

end Ind
end FLPR
