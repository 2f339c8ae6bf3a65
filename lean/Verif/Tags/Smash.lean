import Verif.Token.Model
import Verif.Tags.Defs
/-!
# Model of the fused keyword lookup (src/flpr/Smash_Hash.hh) and `unsmash`
-/

namespace FLPR
namespace Smash

/-- Smash_Hash.hh:60-65 `Smashed`. -/
structure Smashed where
  name : Str
  tok1 : Int
  tok2 : Int
  splitpos : Nat
  deriving DecidableEq, Repr

/-- Smash_Hash.hh:78-94 `asso_values`. -/
def asso : List Nat := [
  32, 32, 32, 32, 32, 32, 32, 32, 32, 32, 32, 32, 32, 32, 32, 32, 32, 32,
  32, 32, 32, 32, 32, 32, 32, 32, 32, 32, 32, 32, 32, 32, 32, 32, 32, 32,
  32, 32, 32, 32, 32, 32, 32, 32, 32, 32, 32, 32, 32, 32, 32, 32, 32, 32,
  32, 32, 32, 32, 32, 32, 32, 32, 32, 32, 32, 32, 32, 32, 32, 32, 32, 32,
  32, 32, 32, 32, 32, 32, 32, 32, 32, 32, 32, 32, 32, 32, 32, 32, 32, 32,
  32, 32, 32, 32, 32, 32, 32, 9, 16, 6, 0, 2, 2, 9, 32, 17, 32, 32,
  32, 7, 32, 0, 10, 32, 8, 4, 0, 11, 32, 10, 32, 32, 32, 32, 32, 32,
  32, 32, 32, 32, 32, 32, 32, 32, 32, 32, 32, 32, 32, 32, 32, 32, 32, 32,
  32, 32, 32, 32, 32, 32, 32, 32, 32, 32, 32, 32, 32, 32, 32, 32, 32, 32,
  32, 32, 32, 32, 32, 32, 32, 32, 32, 32, 32, 32, 32, 32, 32, 32, 32, 32,
  32, 32, 32, 32, 32, 32, 32, 32, 32, 32, 32, 32, 32, 32, 32, 32, 32, 32,
  32, 32, 32, 32, 32, 32, 32, 32, 32, 32, 32, 32, 32, 32, 32, 32, 32, 32,
  32, 32, 32, 32, 32, 32, 32, 32, 32, 32, 32, 32, 32, 32, 32, 32, 32, 32,
  32, 32, 32, 32, 32, 32, 32, 32, 32, 32, 32, 32, 32, 32, 32, 32, 32, 32,
  32, 32, 32, 32]

/-- `asso_values[static_cast<unsigned char>(c)]`.  The entries from 123 on are all 32. -/
def assoOf (c : Char) : Nat := asso.getD c.toNat 32

/-- Smash_Hash.hh:77-108 `hash`: reads `str[6]` for the lengths not listed, `str[3]` for all. -/
def hashFn (s : Str) : Res Nat := do
  let c3 ← at' s 3
  if s.length = 4 ∨ s.length = 5 ∨ s.length = 6 then .ok (s.length + assoOf c3)
  else do
    let c6 ← at' s 6
    .ok (s.length + assoOf c6 + assoOf c3)

/-- Smash_Hash.hh:119-168 `wordlist`. -/
def wordlist : List Smashed := [
  ⟨"goto".toList, Tag.KW_GO, Tag.KW_TO, 2⟩,
  ⟨"enddo".toList, Tag.KW_END, Tag.KW_DO, 3⟩,
  ⟨"elseif".toList, Tag.KW_ELSE, Tag.KW_IF, 4⟩,
  ⟨"endtype".toList, Tag.KW_END, Tag.KW_TYPE, 3⟩,
  ⟨"endfile".toList, Tag.KW_END, Tag.KW_FILE, 3⟩,
  ⟨"selecttype".toList, Tag.KW_SELECT, Tag.KW_TYPE, 6⟩,
  ⟨"elsewhere".toList, Tag.KW_ELSE, Tag.KW_WHERE, 4⟩,
  ⟨"endteam".toList, Tag.KW_END, Tag.KW_TEAM, 3⟩,
  ⟨"endselect".toList, Tag.KW_END, Tag.KW_SELECT, 3⟩,
  ⟨"endenum".toList, Tag.KW_END, Tag.KW_ENUM, 3⟩,
  ⟨"endcritical".toList, Tag.KW_END, Tag.KW_CRITICAL, 3⟩,
  ⟨"selectcase".toList, Tag.KW_SELECT, Tag.KW_CASE, 6⟩,
  ⟨"endfunction".toList, Tag.KW_END, Tag.KW_FUNCTION, 3⟩,
  ⟨"endforall".toList, Tag.KW_END, Tag.KW_FORALL, 3⟩,
  ⟨"endassociate".toList, Tag.KW_END, Tag.KW_ASSOCIATE, 3⟩,
  ⟨"endif".toList, Tag.KW_END, Tag.KW_IF, 3⟩,
  ⟨"endsubmodule".toList, Tag.KW_END, Tag.KW_SUBMODULE, 3⟩,
  ⟨"blockdata".toList, Tag.KW_BLOCK, Tag.KW_DATA, 5⟩,
  ⟨"endsubroutine".toList, Tag.KW_END, Tag.KW_SUBROUTINE, 3⟩,
  ⟨"endwhere".toList, Tag.KW_END, Tag.KW_WHERE, 3⟩,
  ⟨"endmodule".toList, Tag.KW_END, Tag.KW_MODULE, 3⟩,
  ⟨"endprocedure".toList, Tag.KW_END, Tag.KW_PROCEDURE, 3⟩,
  ⟨"endprogram".toList, Tag.KW_END, Tag.KW_PROGRAM, 3⟩,
  ⟨"endblock".toList, Tag.KW_END, Tag.KW_BLOCK, 3⟩,
  ⟨"endinterface".toList, Tag.KW_END, Tag.KW_INTERFACE, 3⟩]

/-- Smash_Hash.hh:175-252: the `switch (key - 4)`, from the key to the index in `wordlist`. -/
def slot : Nat → Option Nat
  | 0 => some 0
  | 1 => some 1
  | 4 => some 2
  | 5 => some 3
  | 7 => some 4
  | 8 => some 5
  | 9 => some 6
  | 10 => some 7
  | 11 => some 8
  | 12 => some 9
  | 13 => some 10
  | 14 => some 11
  | 15 => some 12
  | 16 => some 13
  | 17 => some 14
  | 18 => some 15
  | 19 => some 16
  | 20 => some 17
  | 21 => some 18
  | 22 => some 19
  | 23 => some 20
  | 24 => some 21
  | 25 => some 22
  | 26 => some 23
  | 27 => some 24
  | _ => none

/-- The part of a string that the C string functions see. -/
def cStr (s : Str) : Str := s.takeWhile (fun c => c != NUL)

/-- Smash_Hash.hh:110-263 `in_word_set(str, len)` with `str` the C string of `s` and `len` the size
of `s`. -/
def inWordSet (s : Str) : Res (Option Smashed) :=
  if s.length ≤ 13 ∧ s.length ≥ 4 then do
    let key ← hashFn s
    if key ≤ 31 ∧ key ≥ 4 then
      match slot (key - 4) with
      | none => .ok none
      | some i =>
        match wordlist[i]? with
        | none => .error .ub
        | some w => if cStr s = w.name then .ok (some w) else .ok none
    else .ok none
  else .ok none

/-- Logical_Line.cc:831-860 `unsmash`, on the list of tokens collected so far. -/
def unsmash (frags : List Tok) : Res (List Tok) :=
  match frags.getLast? with
  | none => .ok frags
  | some t =>
    if t.token ≠ Tag.TK_NAME then .ok frags
    else do
      let low := t.lowerText.1
      let w ← inWordSet low
      match w with
      | none => .ok (frags.dropLast ++ [t.lowerText.2])
      | some w => do
        let second ← substrFrom t.text w.splitpos
        .ok (frags.dropLast ++
          [{ t with token := w.tok1, text := t.text.take w.splitpos, lower := [], post := some 0 },
           { t with token := w.tok2, text := second, lower := [], pos := t.pos + w.splitpos,
                    pre := some 0 }])

end Smash
end FLPR
