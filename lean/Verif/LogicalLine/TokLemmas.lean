import Verif.LogicalLine.StmtProps
import Verif.Tags.SmashProps
import Verif.Lexer.Props
/-!
# Lemmas about `tokenize`
-/

namespace FLPR
open Spec Flex Smash

/-! ## Characters of the joined text -/

theorem joined_split (pre : List Piece) (p : Piece) (post : List Piece) :
    joined true (pre ++ p :: post) =
      joined true pre ++ leadBlank pre.isEmpty p ++ p.main ++ trailBlank p ++ joined false post := by
  rw [joined_append]
  simp [joined]

/-- A character of the joined text that is not a blank is a character of some piece. -/
theorem joined_locate (ps : List Piece) (b : Bool) (a : Nat) (c : Char)
    (h : (joined b ps)[a]? = some c) (hc : c ≠ ' ') :
    ∃ pre p post k, ps = pre ++ p :: post ∧ k < p.main.length ∧ p.main[k]? = some c ∧
      a = (joined b pre).length + (leadBlank (b && pre.isEmpty) p).length + k := by
  induction ps generalizing b a with
  | nil => simp [joined] at h
  | cons q ps ih =>
    have hlead : ∀ x ∈ leadBlank b q, x = ' ' := by
      intro x hx; unfold leadBlank at hx; split at hx <;> simp at hx; exact hx
    have htrail : ∀ x ∈ trailBlank q, x = ' ' := by
      intro x hx; unfold trailBlank at hx; split at hx <;> simp at hx; exact hx
    simp only [joined, List.append_assoc] at h
    rw [List.getElem?_append] at h
    split at h
    · exact absurd (hlead c (List.mem_of_getElem? h)) hc
    · rename_i h1
      rw [List.getElem?_append] at h
      split at h
      · rename_i h2
        exact ⟨[], q, ps, a - (leadBlank b q).length, rfl, h2, h, by simp [joined]; omega⟩
      · rename_i h2
        rw [List.getElem?_append] at h
        split at h
        · exact absurd (htrail c (List.mem_of_getElem? h)) hc
        · rename_i h3
          obtain ⟨pre, p, post, k, e, hk, hc', ha⟩ := ih false _ h
          refine ⟨q :: pre, p, post, k, by rw [e]; rfl, hk, hc', ?_⟩
          simp only [joined, List.length_append, List.isEmpty_cons, Bool.and_false,
            Bool.false_and] at ha ⊢
          omega

/-- The text without its blanks. -/
def Spec.squeeze (s : Str) : Str := s.filter (fun c => c != ' ')

theorem squeeze_append (s t : Str) : squeeze (s ++ t) = squeeze s ++ squeeze t := by
  simp [squeeze]

theorem squeeze_lead (b : Bool) (p : Piece) : squeeze (leadBlank b p) = [] := by
  unfold leadBlank squeeze; split <;> simp

theorem squeeze_trail (p : Piece) : squeeze (trailBlank p) = [] := by
  unfold trailBlank squeeze; split <;> simp

theorem squeeze_joined (b : Bool) (ps : List Piece) :
    squeeze (joined b ps) = squeeze (ps.flatMap (·.main)) := by
  induction ps generalizing b with
  | nil => rfl
  | cons p ps ih =>
    simp only [joined, squeeze_append, squeeze_lead, squeeze_trail, ih, List.flatMap_cons]
    simp

/-- What the recorded position `s` means for the text of a token: the lines that are neither comment
nor blank, the first character, one past the last character, and the text between. -/
def Spec.Addresses (code : List FileLine) (s : Span) (text : Str) : Prop :=
  ∃ (bl bc el ec : Nat) (fb fe : FileLine), s = ⟨bl, bc, el, ec⟩ ∧
    code[bl]? = some fb ∧ code[el]? = some fe ∧
    bl ≤ el ∧ bc < fb.main_txt.length ∧ 0 < ec ∧ ec ≤ fe.main_txt.length ∧
    fb.main_txt[bc]? = text.head? ∧ fe.main_txt[ec - 1]? = text.getLast? ∧
    (bl = el → bc < ec ∧ (fb.main_txt.drop bc).take (ec - bc) = text) ∧
    (bl < el → squeeze text = squeeze (fb.main_txt.drop bc ++
      ((code.drop (bl + 1)).take (el - bl - 1)).flatMap (·.main_txt) ++ fe.main_txt.take ec))

theorem pieceOf_main (f : FileLine) : (pieceOf f).main = f.main_txt := rfl

theorem flatMap_pieceOf (fs : List FileLine) :
    (fs.map pieceOf).flatMap (·.main) = fs.flatMap (·.main_txt) := by
  rw [List.flatMap_map]; rfl

theorem split_map (code : List FileLine) (pre : List Piece) (p : Piece) (post : List Piece)
    (h : code.map pieceOf = pre ++ p :: post) :
    ∃ cpre f cpost, code = cpre ++ f :: cpost ∧ cpre.map pieceOf = pre ∧ pieceOf f = p ∧
      cpost.map pieceOf = post := by
  obtain ⟨cpre, c2, e, h1, h2⟩ := List.map_eq_append_iff.mp h
  obtain ⟨f, cpost, e2, h3, h4⟩ := List.map_eq_cons_iff.mp h2
  exact ⟨cpre, f, cpost, by rw [e, e2], h1, h3, h4⟩

theorem append_cons_cases {α : Type} (pre pre' post post' : List α) (p p' : α)
    (h : pre ++ p :: post = pre' ++ p' :: post') :
    (pre = pre' ∧ p = p' ∧ post = post') ∨ (∃ mid, pre' = pre ++ p :: mid ∧ post = mid ++ p' :: post') ∨
      (∃ mid, pre = pre' ++ p' :: mid ∧ post' = mid ++ p :: post) := by
  rcases List.append_eq_append_iff.mp h with ⟨s, h1, h2⟩ | ⟨s, h1, h2⟩
  · cases s with
    | nil => simp at h1 h2; exact Or.inl ⟨h1.symm, h2.1, h2.2⟩
    | cons x s =>
      simp at h2
      exact Or.inr (Or.inl ⟨s, by rw [h1, h2.1], h2.2⟩)
  · cases s with
    | nil => simp at h1 h2; exact Or.inl ⟨h1, h2.1.symm, h2.2.symm⟩
    | cons x s =>
      simp at h2
      exact Or.inr (Or.inr ⟨s, by rw [h1, h2.1], h2.2⟩)

theorem joined_drop (pre : List Piece) (p : Piece) (post : List Piece) (k : Nat)
    (hk : k ≤ p.main.length) :
    (joined true (pre ++ p :: post)).drop (startOf pre p + k) =
      p.main.drop k ++ (trailBlank p ++ joined false post) := by
  rw [joined_split]
  unfold startOf
  rw [List.append_assoc, List.append_assoc, ← List.length_append, ← List.drop_drop,
    List.drop_left, List.drop_append_of_le_length hk]

theorem getLast?_take_drop (A : Str) (a n : Nat) (hn : 0 < n) (hle : a + n ≤ A.length) :
    ((A.drop a).take n).getLast? = A[a + n - 1]? := by
  rw [List.getLast?_eq_getElem?, List.length_take, List.length_drop,
    Nat.min_eq_left (by omega), List.getElem?_take, if_pos (by omega), List.getElem?_drop]
  congr 1
  omega

/-- Where the text of the `i`-th line starts in the joined text. -/
def lineBase (code : List FileLine) (i : Nat) : Nat :=
  match code[i]? with
  | some f => startOf ((code.take i).map pieceOf) (pieceOf f)
  | none => 0

/-- The position `s` stands for the stretch of the joined text from `a` up to `b`. -/
def Spot (code : List FileLine) (s : Span) (a b : Nat) : Prop :=
  ∃ bl bc el ec : Nat, s = ⟨bl, bc, el, ec⟩ ∧ lineBase code bl + bc = a ∧ lineBase code el + ec = b

/-- The position of a stretch of the joined text that starts and ends with no blank. -/
theorem addresses_of_slice (code : List FileLine) (a n : Nat) (hn : 0 < n)
    (hle : a + n ≤ (joined true (code.map pieceOf)).length)
    (h1 : ∀ c ∈ (((joined true (code.map pieceOf)).drop a).take n).head?, c ≠ ' ')
    (h2 : ∀ c ∈ (((joined true (code.map pieceOf)).drop a).take n).getLast?, c ≠ ' ') :
    ∃ (bl bc el ec : Nat) (fb : FileLine) (li ci : Int), code[bl]? = some fb ∧
      (accumAll (code.map pieceOf)).linecolno a =
        .ok (some (fb.linenum, (fb.mainFirstCol : Int) + bc, (bl : Int), (bc : Int))) ∧
      (accumAll (code.map pieceOf)).linecolno ((a + n : Nat) - 1 : Int) =
        .ok (some (li, ci, (el : Int), (ec : Int))) ∧
      Addresses code ⟨bl, bc, el, ec + 1⟩ (((joined true (code.map pieceOf)).drop a).take n) ∧
      Spot code ⟨bl, bc, el, ec + 1⟩ a (a + n) := by
  generalize hA : joined true (code.map pieceOf) = A at *
  obtain ⟨ca, hca⟩ : ∃ c, A[a]? = some c := ⟨A[a], List.getElem?_eq_getElem (by omega)⟩
  obtain ⟨cz, hcz⟩ : ∃ c, A[a + n - 1]? = some c := ⟨A[a + n - 1], List.getElem?_eq_getElem (by omega)⟩
  have hhead : ((A.drop a).take n).head? = some ca := by
    rw [List.head?_take, if_neg (by omega), List.head?_drop, hca]
  have hlast : ((A.drop a).take n).getLast? = some cz := by
    rw [getLast?_take_drop A a n hn hle, hcz]
  have hca' : ca ≠ ' ' := h1 ca (by rw [hhead]; rfl)
  have hcz' : cz ≠ ' ' := h2 cz (by rw [hlast]; rfl)
  rw [← hA] at hca hcz
  obtain ⟨pre, p, post, k, hps, hk, hkc, ha⟩ := joined_locate _ _ _ _ hca hca'
  obtain ⟨pre', p', post', k', hps', hk', hkc', hz⟩ := joined_locate _ _ _ _ hcz hcz'
  rw [Bool.true_and] at ha hz
  have ha : a = startOf pre p + k := ha
  have hz : a + n - 1 = startOf pre' p' + k' := hz
  obtain ⟨cpre, f, cpost, hcode, hm1, hm2, hm3⟩ := split_map code pre p post hps
  obtain ⟨cpre', f', cpost', hcode', hm1', hm2', hm3'⟩ := split_map code pre' p' post' hps'
  have hcol : ∀ f : FileLine, 0 < f.main_txt.length → 0 < (pieceOf f).col := by
    intro f hf
    have hne : f.main_txt ≠ [] := List.length_pos_iff.mp hf
    simp only [pieceOf, FileLine.mainFirstCol, hne, if_false]
    omega
  have hlp : pre.length = cpre.length := by rw [← hm1]; simp
  have hlp' : pre'.length = cpre'.length := by rw [← hm1']; simp
  subst hm2
  subst hm2'
  have hg : code[cpre.length]? = some f := by rw [hcode]; simp
  have hg' : code[cpre'.length]? = some f' := by rw [hcode']; simp
  obtain ⟨o1, _, ho1, hl1, _⟩ := C14_linecolno pre (pieceOf f) post k hk
    (hcol f (by rw [pieceOf_main] at hk; omega))
  obtain ⟨o2, _, ho2, hl2, _⟩ := C14_linecolno pre' (pieceOf f') post' k' hk'
    (hcol f' (by rw [pieceOf_main] at hk'; omega))
  rw [ho1, ← ha, ← hps, hlp] at hl1
  rw [ho2, ← hz, ← hps', hlp'] at hl2
  have he2 : ((a + n : Nat) - 1 : Int) = ((a + n - 1 : Nat) : Int) := by omega
  refine ⟨cpre.length, k, cpre'.length, k', f, _, _, hg, hl1, by rw [he2]; exact hl2, ?_,
    cpre.length, k, cpre'.length, k' + 1, by simp, ?_, ?_⟩
  rotate_left
  · have : (code.take cpre.length).map pieceOf = pre := by rw [hcode]; simp [hm1]
    simp only [lineBase, hg, this]
    omega
  · have : (code.take cpre'.length).map pieceOf = pre' := by rw [hcode']; simp [hm1']
    simp only [lineBase, hg', this]
    omega
  rw [pieceOf_main] at hk hk' hkc hkc'
  refine ⟨cpre.length, k, cpre'.length, k' + 1, f, f', by simp, hg, hg', ?_, hk, by omega, by omega,
    by rw [hkc, hhead], by simp [hkc', hlast], ?_⟩
  · rcases append_cons_cases pre pre' post post' _ _ (hps.symm.trans hps') with
      ⟨e, _, _⟩ | ⟨mid, e, _⟩ | ⟨mid, e, _⟩
    · rw [← hlp, ← hlp', e]
    · rw [← hlp, ← hlp', e]; simp
    · exfalso
      have := C14_offsets_distinct pre' (pieceOf f') mid (pieceOf f) k' k hk'
      rw [← e] at this
      omega
  · rcases append_cons_cases cpre cpre' cpost cpost' _ _ (hcode.symm.trans hcode') with
      ⟨e, e1, e2⟩ | ⟨mid, e, e1⟩ | ⟨mid, e, e1⟩
    · subst e; subst e1; subst e2
      have epre : pre = pre' := by rw [← hm1, ← hm1']
      subst epre
      refine ⟨fun _ => ⟨by omega, ?_⟩, fun h => absurd h (by omega)⟩
      rw [← hA, hps, ha, joined_drop _ _ _ _ (by rw [pieceOf_main]; omega), pieceOf_main,
        List.take_append_of_le_length (by rw [List.length_drop]; omega)]
      congr 1
      omega
    · have hlen : cpre.length < cpre'.length := by rw [e]; simp
      refine ⟨fun h => absurd h (by omega), fun _ => ?_⟩
      have hmid : (code.drop (cpre.length + 1)).take (cpre'.length - cpre.length - 1) = mid := by
        rw [hcode, e1, e]
        have : cpre ++ f :: (mid ++ f' :: cpost') = (cpre ++ [f]) ++ (mid ++ f' :: cpost') := by simp
        rw [this, List.drop_left' (by simp)]
        rw [List.take_left' (by simp)]
      rw [hmid]
      -- the slice in the joined text
      have hpost : post = mid.map pieceOf ++ pieceOf f' :: cpost'.map pieceOf := by
        rw [← hm3, e1]; simp
      have hpre' : pre' = pre ++ pieceOf f :: mid.map pieceOf := by
        rw [← hm1', e, ← hm1]; simp
      have hjf : joined false post = joined false (mid.map pieceOf) ++
          (leadBlank false (pieceOf f') ++ (f'.main_txt ++ (trailBlank (pieceOf f') ++
            joined false (cpost'.map pieceOf)))) := by
        rw [hpost, joined_append]
        simp [joined, pieceOf_main]
      have hst : startOf pre' (pieceOf f') = startOf pre (pieceOf f) + f.main_txt.length +
          (trailBlank (pieceOf f)).length + (joined false (mid.map pieceOf)).length +
          (leadBlank false (pieceOf f')).length := by
        have hie : (pre ++ pieceOf f :: mid.map pieceOf).isEmpty = false := by simp
        rw [hpre']
        unfold startOf
        rw [joined_split, hie]
        simp [pieceOf_main]
        omega
      rw [← hA, hps, ha, joined_drop _ _ _ _ (by rw [pieceOf_main]; omega), hjf, pieceOf_main]
      have hnn : n = (f.main_txt.drop k).length + ((trailBlank (pieceOf f)).length +
          ((joined false (mid.map pieceOf)).length + ((leadBlank false (pieceOf f')).length +
            (k' + 1)))) := by
        rw [List.length_drop]; omega
      rw [hnn]
      simp only [List.take_length_add_append]
      rw [List.take_append_of_le_length (l₁ := f'.main_txt) (by omega)]
      simp only [squeeze_append, squeeze_lead, squeeze_trail, squeeze_joined, flatMap_pieceOf]
      simp
    · exfalso
      have := C14_offsets_distinct pre' (pieceOf f') (mid.map pieceOf) (pieceOf f) k' k
        (by rw [pieceOf_main]; exact hk')
      have e' : pre = pre' ++ pieceOf f' :: mid.map pieceOf := by rw [← hm1, e, ← hm1']; simp
      rw [← e'] at this
      omega

end FLPR
