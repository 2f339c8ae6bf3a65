import Verif.Case.Scan
/-!
# Case of letters: the scanner
-/

namespace FLPR
open Spec SP

theorem lowChar_idem (c : Char) : lowChar (lowChar c) = lowChar c := by
  by_cases h : 'A' ≤ c ∧ c ≤ 'Z'
  · have := lowChar_upper h
    refine lowChar_id ?_
    rintro ⟨_, h2⟩
    have : (lowChar c).toNat ≤ 90 := h2
    omega
  · rw [lowChar_id h, lowChar_id h]

namespace Flex

/-- All classes of characters of the expression disregard case. -/
def Blind : RE → Prop
  | .empty => True
  | .eps => True
  | .cls p => ∀ c, p (lowChar c) = p c
  | .seq a b => Blind a ∧ Blind b
  | .alt a b => Blind a ∧ Blind b
  | .star a => Blind a

theorem blind_mkSeq {a b : RE} (ha : Blind a) (hb : Blind b) : Blind (RE.mkSeq a b) := by
  unfold RE.mkSeq
  split
  · trivial
  · exact ⟨ha, hb⟩

theorem blind_mkAlt {a b : RE} (ha : Blind a) (hb : Blind b) : Blind (RE.mkAlt a b) := by
  unfold RE.mkAlt
  split
  · exact hb
  · split
    · exact ha
    · exact ⟨ha, hb⟩

theorem blind_der (c : Char) : ∀ (r : RE), Blind r → Blind (r.der c)
  | .empty, _ => trivial
  | .eps, _ => trivial
  | .cls p, _ => by
    unfold RE.der
    split <;> trivial
  | .seq a b, h => by
    unfold RE.der
    split
    · exact blind_mkAlt (blind_mkSeq (blind_der c a h.1) h.2) (blind_der c b h.2)
    · exact blind_mkSeq (blind_der c a h.1) h.2
  | .alt a b, h => by
    unfold RE.der
    exact blind_mkAlt (blind_der c a h.1) (blind_der c b h.2)
  | .star a, h => by
    have h' : Blind a := h
    unfold RE.der
    exact blind_mkSeq (blind_der c a h') h

theorem der_case {c d : Char} (hc : CharEq c d) : ∀ (r : RE), Blind r → r.der d = r.der c
  | .empty, _ => rfl
  | .eps, _ => rfl
  | .cls p, h => by
    unfold RE.der
    rw [← h d, hc, h c]
  | .seq a b, h => by
    unfold RE.der
    rw [der_case hc a h.1, der_case hc b h.2]
  | .alt a b, h => by
    unfold RE.der
    rw [der_case hc a h.1, der_case hc b h.2]
  | .star a, h => by
    have h' : Blind a := h
    unfold RE.der
    rw [der_case hc a h']

theorem longestGo_case : ∀ {a b : Str}, SameLetters a b → ∀ (r : RE), Blind r → ∀ (n : Nat) (best : Option Nat),
    r.longestGo b n best = r.longestGo a n best
  | [], b, h, r, hr, n, best => by rw [sl_nil.mp h]
  | c :: a, b, h, r, hr, n, best => by
    obtain ⟨d, b', rfl, h1, h2⟩ := sl_cons.mp h
    rw [RE.longestGo, RE.longestGo, der_case h1 r hr, longestGo_case h2 _ (blind_der c r hr)]

theorem pick_case {α : Type} {a b : Str} (h : SameLetters a b) : ∀ (rs : List (RE × α)), (∀ p ∈ rs, Blind p.1) → pick rs b = pick rs a
  | [], _ => rfl
  | (r, x) :: rs, hr => by
    have h1 : r.longest b = r.longest a := longestGo_case h r (hr _ List.mem_cons_self) 0 none
    rw [pick, pick, h1, pick_case h rs (fun p hp => hr p (List.mem_cons_of_mem _ hp))]

theorem blind_lit : ∀ (s : Str), Blind (lit s)
  | [] => trivial
  | [c] => fun d => by
    show (lowChar (lowChar d) == c) = (lowChar d == c)
    rw [lowChar_idem]
  | c :: d :: cs => ⟨fun e => by
      show (lowChar (lowChar e) == c) = (lowChar e == c)
      rw [lowChar_idem], blind_lit (d :: cs)⟩

theorem blind_oneOf (s : Str) : Blind (oneOf s) := fun d => by
  show s.contains (lowChar (lowChar d)) = s.contains (lowChar d)
  rw [lowChar_idem]

theorem isLetter_low (c : Char) : isLetter (lowChar c) = isLetter c := by
  unfold isLetter
  rw [lowChar_idem]

theorem beq_low {d : Char} (hd : NoLetter d) (c : Char) : (lowChar c == d) = (c == d) := by
  rw [Bool.eq_iff_iff, beq_iff_eq, beq_iff_eq, noLetter_low hd]

theorem bne_low {d : Char} (hd : NoLetter d) (c : Char) : (lowChar c != d) = (c != d) := by
  unfold bne
  rw [beq_low hd]

theorem isWord_low (c : Char) : isWord (lowChar c) = isWord c := by
  unfold isWord
  rw [isLetter_low, isDigit_low, beq_low (d := '_') (.inr (.inl (by decide)))]

theorem blind_digit : Blind (.cls isDigit) := isDigit_low
theorem blind_letter : Blind (.cls isLetter) := isLetter_low
theorem blind_name : Blind NAME := ⟨isLetter_low, isWord_low⟩
theorem blind_plus {r : RE} (h : Blind r) : Blind (plus r) := ⟨h, h⟩
theorem blind_opt {r : RE} (h : Blind r) : Blind (opt r) := ⟨h, trivial⟩
theorem blind_kind : Blind KIND := ⟨blind_plus blind_digit, blind_name⟩
theorem blind_significand : Blind SIGNIFICAND :=
  ⟨⟨blind_plus blind_digit, blind_lit _, blind_digit⟩, blind_lit _, blind_plus blind_digit⟩
theorem blind_exponent : Blind EXPONENT := ⟨blind_oneOf _, blind_opt (blind_oneOf _), blind_plus blind_digit⟩
theorem blind_suffix : Blind kindSuffix := blind_opt ⟨blind_lit _, blind_kind⟩
theorem blind_dot : Blind dot := bne_low (.inl (by decide))
theorem blind_charLit {q : Char} (hq : NoLetter q) : Blind (charLit q) :=
  ⟨blind_opt ⟨blind_kind, blind_lit _⟩, blind_lit _, ⟨blind_lit _, bne_low hq⟩, blind_lit _⟩

theorem blind_rules (q : Cond) : ∀ p ∈ rules q, Blind p.1 := by
  cases q with
  | initial =>
    intro p hp
    change p ∈ initialRules at hp
    unfold initialRules at hp
    rw [List.mem_append, List.mem_append, List.mem_map, List.mem_map] at hp
    rcases hp with (⟨k, _, rfl⟩ | ⟨k, _, rfl⟩) | hp
    · exact blind_lit _
    · exact blind_lit _
    · unfold literalRules at hp
      simp only [List.mem_cons, List.not_mem_nil, or_false] at hp
      rcases hp with rfl | rfl | rfl | rfl | rfl | rfl | rfl | rfl | rfl | rfl | rfl
      · exact ⟨blind_lit _, blind_suffix⟩
      · exact ⟨blind_lit _, blind_suffix⟩
      · exact blind_charLit dquote_noLetter
      · exact blind_charLit quote_noLetter
      · exact ⟨blind_significand, blind_opt blind_exponent, blind_suffix⟩
      · exact ⟨blind_plus blind_digit, blind_exponent, blind_suffix⟩
      · exact ⟨blind_plus blind_digit, blind_suffix⟩
      · exact ⟨blind_lit _, blind_plus blind_letter, blind_lit _⟩
      · exact blind_name
      · exact blind_oneOf _
      · exact blind_dot
  | realParse =>
    intro p hp
    simp only [rules, List.mem_cons, List.not_mem_nil, or_false] at hp
    rcases hp with rfl | rfl | rfl | rfl | rfl
    · exact blind_significand
    · exact blind_plus blind_digit
    · exact blind_exponent
    · exact ⟨blind_lit _, blind_kind⟩
    · exact fun _ => rfl
  | expParse =>
    intro p hp
    simp only [rules, List.mem_cons, List.not_mem_nil, or_false] at hp
    rcases hp with rfl | rfl
    · exact blind_oneOf _
    · exact ⟨blind_opt (blind_oneOf _), blind_plus blind_digit⟩
  | kindParse =>
    intro p hp
    simp only [rules, List.mem_cons, List.not_mem_nil, or_false] at hp
    rcases hp with rfl | rfl
    · exact blind_lit _
    · exact blind_kind

/-- Lexemes that agree but for the case of letters. -/
structure CaseLex (l l' : Lexeme) : Prop where
  tag : l'.tag = l.tag
  stop : l'.stop = l.stop
  text : SameLetters l.text l'.text

def CaseLexed (x y : List Lexeme × State) : Prop := List.Forall₂ CaseLex x.1 y.1 ∧ y.2 = x.2

/-- The same for the optional results of the scanner. -/
def CaseScan (o o' : Option (Res (List Lexeme × State))) : Prop :=
  match o, o' with
  | none, none => True
  | some x, some y => BothWays CaseLexed x y
  | _, _ => False

/-- A lexeme in front of a result. -/
def consScan (l : Lexeme) (o : Option (Res (List Lexeme × State))) : Option (Res (List Lexeme × State)) :=
  match o with
  | none => none
  | some (.error e) => some (.error e)
  | some (.ok (ls, st')) => some (.ok (l :: ls, st'))

theorem consScan_case {l l' : Lexeme} (hl : CaseLex l l') {o o' : Option (Res (List Lexeme × State))} (h : CaseScan o o') :
    CaseScan (consScan l o) (consScan l' o') := by
  cases o with
  | none =>
    cases o' with
    | none => trivial
    | some _ => exact h.elim
  | some x =>
    cases o' with
    | none => exact h.elim
    | some y =>
      cases x with
      | error e =>
        cases y with
        | error e' => exact h
        | ok y => exact h.elim
      | ok x =>
        cases y with
        | error e' => exact h.elim
        | ok y =>
          have h : CaseLexed x y := h
          exact ⟨.cons hl h.1, h.2⟩

theorem scanGo_case : ∀ (fuel : Nat) (st : State) (pos : Nat) {a b : Str}, SameLetters a b →
    CaseScan (scanGo fuel st pos a) (scanGo fuel st pos b)
  | 0, st, pos, a, b, h => trivial
  | fuel + 1, st, pos, [], b, h => by
    rw [sl_nil.mp h]
    exact ⟨.nil, rfl⟩
  | fuel + 1, st, pos, c :: a, b, h => by
    obtain ⟨d, b', rfl, h1, h2⟩ := sl_cons.mp h
    rw [scanGo.eq_def, scanGo.eq_def]
    dsimp only
    rw [pick_case h (rules st.cond) (blind_rules st.cond)]
    cases pick (rules st.cond) (c :: a) with
    | none => exact scanGo_case fuel st (pos + 1) h2
    | some x =>
      obtain ⟨n, act⟩ := x
      cases act with
      | skip => exact scanGo_case fuel st (pos + n) (sl_drop h n)
      | ret t =>
        exact consScan_case (l := ⟨t, (c :: a).take n, pos + n⟩) (l' := ⟨t, (d :: b').take n, pos + n⟩) ⟨rfl, rfl, sl_take h n⟩
          (scanGo_case fuel st (pos + n) (sl_drop h n))
      | popRet t =>
        dsimp only
        cases st.stack with
        | nil => exact (rfl : Fail.exc = Fail.exc)
        | cons q qs =>
          exact consScan_case (l := ⟨t, (c :: a).take n, pos + n⟩) (l' := ⟨t, (d :: b').take n, pos + n⟩) ⟨rfl, rfl, sl_take h n⟩
            (scanGo_case fuel ⟨q, qs⟩ (pos + n) (sl_drop h n))
      | begin q => exact scanGo_case fuel { st with cond := q } pos h
      | push q => exact scanGo_case fuel ⟨q, st.cond :: st.stack⟩ pos h

theorem all_case {p : Char → Bool} (hp : ∀ c c', CharEq c c' → p c' = p c) : ∀ {a b : Str}, SameLetters a b → b.all p = a.all p
  | [], b, h => by rw [sl_nil.mp h]
  | c :: a, b, h => by
    obtain ⟨d, b', rfl, h1, h2⟩ := sl_cons.mp h
    rw [List.all_cons, List.all_cons, hp c d h1, all_case hp h2]

theorem scan_case (st : State) {a b : Str} (h : SameLetters a b) : BothWays CaseLexed (scan st a) (scan st b) := by
  unfold scan
  have h1 : SameLetters (Smash.cStr a) (Smash.cStr b) :=
    takeWhile_case (fun c c' hc => by
      show (c' != NUL) = (c != NUL)
      unfold bne
      rw [charEq_beq hc nul_noLetter]) h
  dsimp only
  rw [all_case (fun c c' hc => charEq_ascii hc) h1]
  refine BW.ite (fun _ => ?_) (fun _ => BW.err _)
  have e : scanFuel (Smash.cStr b) = scanFuel (Smash.cStr a) := by
    unfold scanFuel
    rw [sl_length h1]
  rw [e]
  have h2 := scanGo_case (scanFuel (Smash.cStr a)) st 0 h1
  revert h2
  cases scanGo (scanFuel (Smash.cStr a)) st 0 (Smash.cStr a) with
  | none =>
    cases scanGo (scanFuel (Smash.cStr a)) st 0 (Smash.cStr b) with
    | none => intro _; exact BW.err _
    | some y => intro h; exact h.elim
  | some x =>
    cases scanGo (scanFuel (Smash.cStr a)) st 0 (Smash.cStr b) with
    | none => intro h; exact h.elim
    | some y => intro h; exact h

end Flex
end FLPR
