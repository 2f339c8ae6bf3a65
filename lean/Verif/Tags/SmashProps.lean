import Verif.Tags.Smash
import Verif.FileLine.Lemmas
/-!
# Properties of the fused keyword lookup (C23)
-/

namespace FLPR
open Smash

namespace Spec

/-- docs/Smash_Hash.gperf: the adjacent keywords that may be written without a blank, as in
section 6.3.2.2 of the standard. -/
def fusedPairs : List (String × String) := [
  ("block", "data"), ("else", "if"), ("else", "where"), ("end", "associate"), ("end", "block"),
  ("end", "critical"), ("end", "do"), ("end", "enum"), ("end", "file"), ("end", "forall"),
  ("end", "function"), ("end", "if"), ("end", "interface"), ("end", "module"),
  ("end", "procedure"), ("end", "program"), ("end", "select"), ("end", "submodule"),
  ("end", "subroutine"), ("end", "team"), ("end", "type"), ("end", "where"), ("go", "to"),
  ("select", "case"), ("select", "type")]

/-- The tag `t` is that of the keyword written `w` in lower case. -/
def IsKeyword (w : String) (t : Int) : Prop :=
  ∃ n : Nat, t = n ∧ (Tag.table[n]?).map (fun e => (e.1.toList.map lowChar, e.2)) = some (w.toList, 4)

/-- What an entry must say for a pair of keywords. -/
def Describes (p : String × String) (e : Smashed) : Prop :=
  e.name = p.1.toList ++ p.2.toList ∧ e.splitpos = p.1.toList.length ∧
    IsKeyword p.1 e.tok1 ∧ IsKeyword p.2 e.tok2

end Spec
open Spec

/-- What each word of the list satisfies: the hash of the word leads to its own slot, and nothing
else does. -/
theorem wordlist_ok : ∀ k < 28, ∀ i ∈ slot k, ∃ w ∈ wordlist[i]?, hashFn w.name = .ok (k + 4) ∧
    4 ≤ w.name.length ∧ w.name.length ≤ 13 ∧ NUL ∉ w.name := by
  decide +kernel

theorem slot_of_word : ∀ i < 25, ∃ k < 28, slot k = some i := by decide +kernel

theorem wordlist_describes : ∀ w ∈ wordlist, ∃ p ∈ fusedPairs, Describes p w := by
  have h : ∀ w ∈ wordlist, ∃ p ∈ fusedPairs, w.name = p.1.toList ++ p.2.toList ∧
      w.splitpos = p.1.toList.length ∧
      ((Tag.table[w.tok1.toNat]?).map (fun e => (e.1.toList.map lowChar, e.2)) =
        some (p.1.toList, 4) ∧ w.tok1 = w.tok1.toNat) ∧
      ((Tag.table[w.tok2.toNat]?).map (fun e => (e.1.toList.map lowChar, e.2)) =
        some (p.2.toList, 4) ∧ w.tok2 = w.tok2.toNat) := by
    decide +kernel
  intro w hw
  obtain ⟨p, hp, h1, h2, h3, h4⟩ := h w hw
  exact ⟨p, hp, h1, h2, ⟨_, h3.2, h3.1⟩, ⟨_, h4.2, h4.1⟩⟩

theorem wordlist_complete : ∀ p ∈ fusedPairs, ∃ w ∈ wordlist, w.name = p.1.toList ++ p.2.toList := by
  decide +kernel

theorem slot_lt (k i : Nat) (h : slot k = some i) : k < 28 ∧ i < 25 := by
  unfold slot at h
  split at h <;> first | (simp at h; omega) | simp at h

theorem cStr_prefix (s : Str) : ∃ t, s = cStr s ++ t ∧ (t = [] ∨ ∃ u, t = NUL :: u) := by
  refine ⟨s.dropWhile (fun c => c != NUL), (List.takeWhile_append_dropWhile).symm, ?_⟩
  cases h : s.dropWhile (fun c => c != NUL) with
  | nil => exact Or.inl rfl
  | cons a u =>
    right
    have := List.head?_dropWhile_not (p := fun c => c != NUL) s
    rw [h] at this
    simp at this
    exact ⟨u, by rw [this]⟩

theorem at'_append (w t : Str) (i : Nat) (h : i < w.length) : at' (w ++ t) i = at' w i := by
  unfold at'
  rw [if_pos (by simp; omega), if_pos h]
  simp [List.getElem?_append_left h]

/-- Extending a word changes its hash. -/
theorem hash_append_ne (w t : Str) (ht : t ≠ []) (h4 : 4 ≤ w.length) (k : Nat)
    (hk : hashFn w = .ok k) (hk' : hashFn (w ++ t) = .ok k) : False := by
  have htl : 0 < t.length := List.length_pos_iff.mpr ht
  unfold hashFn at hk hk'
  rw [at'_append w t 3 (by omega)] at hk'
  rbind hk with c3 h3
  rw [h3, Res.ok_bind] at hk'
  split at hk
  · simp at hk
    split at hk'
    · simp at hk'; omega
    · rbind hk' with c6 h6
      simp at hk'; omega
  · rename_i hn
    rbind hk with c6 h6
    rw [if_neg (by simp; omega)] at hk'
    rw [at'_append w t 6 (by omega), h6, Res.ok_bind] at hk'
    simp at hk hk'
    omega

theorem hash_ok (s : Str) (h4 : 4 ≤ s.length) : ∃ k, hashFn s = .ok k := by
  unfold hashFn at'
  rw [if_pos (by omega)]
  split
  · exact ⟨_, rfl⟩
  · rw [if_pos (by omega)]; exact ⟨_, rfl⟩

/-- The lookup in one sentence. -/
theorem inWordSet_spec (s : Str) :
    (∃ w ∈ wordlist, w.name = s ∧ inWordSet s = .ok (some w)) ∨
    ((∀ w ∈ wordlist, w.name ≠ s) ∧ inWordSet s = .ok none) := by
  by_cases hs : ∃ w ∈ wordlist, w.name = s
  · left
    obtain ⟨w, hw, rfl⟩ := hs
    have h : ∀ w ∈ wordlist, inWordSet w.name = .ok (some w) := by decide +kernel
    exact ⟨w, hw, rfl, h w hw⟩
  · right
    have hs' : ∀ w ∈ wordlist, w.name ≠ s := fun w hw e => hs ⟨w, hw, e⟩
    refine ⟨hs', ?_⟩
    unfold inWordSet
    split
    · rename_i hl
      obtain ⟨k, hk⟩ := hash_ok s hl.2
      rw [hk, Res.ok_bind]
      split
      · rename_i hkr
        cases hsl : slot (k - 4) with
        | none => rfl
        | some i =>
          obtain ⟨hk28, _⟩ := slot_lt _ _ hsl
          obtain ⟨w, hw, hh, hw4, hw13, hnul⟩ := wordlist_ok (k - 4) hk28 i hsl
          have hw' : wordlist[i]? = some w := hw
          simp only [hw']
          split
          · rename_i hc
            exfalso
            obtain ⟨t, ht, hcase⟩ := cStr_prefix s
            rw [hc] at ht
            rcases hcase with rfl | ⟨u, rfl⟩
            · simp at ht
              exact hs' w (List.mem_of_getElem? hw') ht.symm
            · have e : k - 4 + 4 = k := by omega
              rw [e] at hh
              rw [ht] at hk
              exact hash_append_ne w.name (NUL :: u) (by simp) hw4 k hh hk
          · rfl
      · rfl
    · rfl

/-- **C23** (lookup) The lookup never fails.  It finds an entry exactly for the strings that are a
pair of keywords of the gperf input written without a blank, and the entry describes that pair: the
tags are those of the two keywords and the split position is the length of the first. -/
theorem C23_lookup (s : Str) :
    (∃ p ∈ fusedPairs, s = p.1.toList ++ p.2.toList ∧
      ∃ e, inWordSet s = .ok (some e) ∧ Describes p e) ∨
    ((∀ p ∈ fusedPairs, s ≠ p.1.toList ++ p.2.toList) ∧ inWordSet s = .ok none) := by
  rcases inWordSet_spec s with ⟨w, hw, rfl, h⟩ | ⟨hs, h⟩
  · obtain ⟨p, hp, hd⟩ := wordlist_describes w hw
    exact Or.inl ⟨p, hp, hd.1, w, h, hd⟩
  · refine Or.inr ⟨?_, h⟩
    intro p hp e
    obtain ⟨w, hw, hn⟩ := wordlist_complete p hp
    exact hs w hw (hn.trans e.symm)

/-- **C23** (splitting) A name token whose lower-case text is a fused pair is replaced by two tokens
whose texts join to the original text, whose lower-case texts are the two keywords and whose tags
are those of the keywords. -/
theorem C23_unsmash_split (pre : List Tok) (t : Tok) (p : String × String) (hp : p ∈ fusedPairs)
    (hn : t.token = Tag.TK_NAME) (hc : t.lower = [] ∨ t.lower = t.text.map lowChar)
    (ht : t.text.map lowChar = p.1.toList ++ p.2.toList) :
    ∃ a b, unsmash (pre ++ [t]) = .ok (pre ++ [a, b]) ∧ a.text ++ b.text = t.text ∧
      a.text.map lowChar = p.1.toList ∧ b.text.map lowChar = p.2.toList ∧
      IsKeyword p.1 a.token ∧ IsKeyword p.2 b.token ∧ a.lower = [] ∧ b.lower = [] ∧
      a.line = t.line ∧ b.line = t.line ∧ a.pos = t.pos ∧ b.pos = t.pos + a.text.length ∧
      a.post = some 0 ∧ b.pre = some 0 ∧ a.pre = t.pre ∧ b.post = t.post ∧
      a.span = t.span ∧ b.span = t.span := by
  have hlow : t.lowerText.1 = p.1.toList ++ p.2.toList := by
    unfold Tok.lowerText
    by_cases h : t.lower = []
    · simp [h, ht]
    · rcases hc with hc | hc
      · exact absurd hc h
      · simp only [h, if_false]; rw [hc, ht]
  rcases C23_lookup (p.1.toList ++ p.2.toList) with ⟨q, hq, e, w, hw, hd⟩ | ⟨h, _⟩
  · have hpq : ∀ p ∈ fusedPairs, ∀ q ∈ fusedPairs,
        p.1.toList ++ p.2.toList = q.1.toList ++ q.2.toList → p = q := by decide +kernel
    obtain rfl := hpq p hp q hq e
    obtain ⟨_, hsp, hk1, hk2⟩ := hd
    have hlen : t.text.length = p.1.toList.length + p.2.toList.length := by
      have := congrArg List.length ht
      simpa using this
    have hsub : substrFrom t.text w.splitpos = .ok (t.text.drop w.splitpos) := by
      unfold substrFrom; rw [if_pos (by omega)]
    refine ⟨{ t with token := w.tok1, text := t.text.take w.splitpos, lower := [], post := some 0 },
      { t with token := w.tok2, text := t.text.drop w.splitpos, lower := [],
               pos := t.pos + w.splitpos, pre := some 0 }, ?_, ?_, ?_, ?_, hk1, hk2, rfl, rfl, rfl,
      rfl, rfl, ?_, rfl, rfl, rfl, rfl, rfl, rfl⟩
    · unfold unsmash
      simp only [List.getLast?_append, List.getLast?_singleton, Option.some_or, hn, ne_eq,
        not_true_eq_false, if_false, hlow, hw, Res.ok_bind, hsub]
      simp
    · simp
    · simp only []
      rw [List.map_take, ht, hsp]; simp
    · simp only []
      rw [List.map_drop, ht, hsp]; simp
    · simp only [List.length_take, hsp]
      omega
  · exact absurd rfl (h p hp)

/-- **C23** (nothing else is split) If the last token is not a name or its lower-case text is not a
fused pair, the tokens keep their tags and texts. -/
theorem C23_unsmash_other (frags : List Tok)
    (h : ∀ t ∈ frags.getLast?, t.token = Tag.TK_NAME →
      ∀ p ∈ fusedPairs, t.lowerText.1 ≠ p.1.toList ++ p.2.toList) :
    ∃ r, unsmash frags = .ok r ∧
      r.map (fun t => (t.token, t.text)) = frags.map (fun t => (t.token, t.text)) := by
  unfold unsmash
  cases hl : frags.getLast? with
  | none => exact ⟨_, rfl, rfl⟩
  | some t =>
    by_cases hn : t.token = Tag.TK_NAME
    · rcases C23_lookup t.lowerText.1 with ⟨p, hp, e, _⟩ | ⟨_, hw⟩
      · exact absurd e (h t hl hn p hp)
      · have hf : frags = frags.dropLast ++ [t] := by
          obtain ⟨ys, rfl⟩ := List.getLast?_eq_some_iff.mp hl
          simp
        simp only [hn, ne_eq, not_true_eq_false, if_false, hw, Res.ok_bind]
        refine ⟨_, rfl, ?_⟩
        conv => rhs; rw [hf]
        simp only [List.map_append, List.map_cons, List.map_nil]
        have h1 : t.lowerText.2.token = t.token := by unfold Tok.lowerText; split <;> rfl
        have h2 : t.lowerText.2.text = t.text := by unfold Tok.lowerText; split <;> rfl
        rw [h1, h2]
    · simp only [ne_eq, hn, not_false_eq_true, if_true]
      exact ⟨_, rfl, rfl⟩

example : ("end", "do") ∈ fusedPairs ∧
    ("EndDo".toList).map lowChar = "end".toList ++ "do".toList := by decide
example : inWordSet "enddoo".toList = .ok none := by decide

end FLPR
