import Verif.StmtParser.ClientProps
import Verif.StmtParser.FormProps
/-!
# C88, continued: what a parser of a client accepts
-/

namespace FLPR
namespace SP
open Spec

theorem seq_ok_tree {n : Nat} {tag : Int} {ps : List P} {s : Strm} {o : Out} (h : eval R.body noExts n (.seq tag ps) s = .ok o) :
    o.tree.isSome = o.ok := by
  cases n with
  | zero => cases h
  | succ n =>
    rw [eval, step] at h
    pbind h with r hr
    split at h
    · pbind h with m hm
      cases h
      rfl
    · cases h
      rfl

theorem client_run {tag : Int} {ps : List P} {F : PForm} (hg : (P.seq tag ps).good = true) (hp : (P.seq tag ps).starsTake R.takes = true)
    (hc : (P.seq tag ps).calls (fun r => R.designates.contains r) = false) (hF : toForm 40 (.seq tag ps) = some F)
    {s : Strm} (hs : GoodStmt s) :
    (∃ n t, ClientReturns (.seq tag ps) s (.ok (some n, t))) ↔ ∃ r, F.run (restOf s) = some r := by
  have key : ∀ tree t, ClientReturns (.seq tag ps) s (.ok (tree, t)) → Agrees (F.run (restOf s)) s tree.isSome t := by
    rintro tree t ⟨N, h⟩
    have h := h N (le_refl _)
    rw [runClient, runBody] at h
    pbind h with o ho
    cases h
    rw [seq_ok_tree ho]
    exact eval_run noExts N 40 _ F s o hF hs ho
  constructor
  · rintro ⟨n, t, h⟩
    obtain ⟨_, _, _, _, hr⟩ := agrees_some (key _ _ h) rfl
    exact ⟨_, hr⟩
  · rintro ⟨r, hr⟩
    obtain ⟨res, hres, _⟩ := C88_terminates _ hp s
    rcases C88_defined _ hg s hs res hres with ⟨⟨tree, t⟩, rfl⟩ | ⟨_, _, h⟩
    · cases tree with
      | some n => exact ⟨n, t, hres⟩
      | none =>
        obtain ⟨h2, _⟩ := agrees_none (key _ _ hres) rfl
        rw [hr] at h2; cases h2
    · rw [hc] at h; cases h

/-- C88: a sequence made by a client, for which the tests of C63 come out well against a form `G`, accepts exactly the
statements of that form. -/
theorem C88_form (tag : Int) (ps : List P) (F : PForm) (G : Form) (hg : (P.seq tag ps).good = true)
    (hp : (P.seq tag ps).starsTake R.takes = true) (hc : (P.seq tag ps).calls (fun r => R.designates.contains r) = false)
    (hF : toForm 40 (.seq tag ps) = some F) (h1 : sameForm F.erase G = true) (h2 : endsF F = true) (h3 : takesAll [] F = true)
    (s : Strm) (hs : GoodStmt s) :
    (∃ n t, ClientReturns (.seq tag ps) s (.ok (some n, t))) ↔ G.Is (restOf s) := by
  rw [client_run hg hp hc hF hs]
  constructor
  · rintro ⟨r, hrun⟩
    have hn := good_nested hs
    have e := endsF_sound F _ _ h2 hn (good_noBad hs) hrun
    subst e
    obtain ⟨w, hw, hw2⟩ := run_sound F _ _ hn hrun
    rw [List.append_nil] at hw
    rw [hw]
    exact (sameForm_is h1 w).mp hw2
  · intro hw
    refine ⟨[], takesAll_sound h3 (good_noBad hs) ?_⟩
    rw [← but_flat]
    exact (sameForm_but h1 [] _).mpr ((but_nil G _).mpr hw)

/-- `write (...), a [, b]...` with names for the items, tagged by the client. -/
def writeNames : List P :=
  [.tok Tag.KW_WRITE, .tagIf Tag.SG_IO_CONTROL_SPEC_LIST (.rule .consume_parens), .tok Tag.TK_COMMA,
    .list Tag.SG_OUTPUT_ITEM_LIST .name, .peek Tag.BAD]

/-- The parser of `ext_demo` with names for the items accepts exactly what it looks like. -/
theorem C88_write_names (tag : Int) (s : Strm) (hs : GoodStmt s) :
    (∃ n t, ClientReturns (.seq tag writeNames) s (.ok (some n, t))) ↔
      (Form.seqs [.word Tag.KW_WRITE, .group, .word Tag.TK_COMMA, .list .name]).Is (restOf s) := by
  obtain ⟨F, hF⟩ : ∃ F, toForm 40 (.seq 0 writeNames) = some F := Option.isSome_iff_exists.mp (by decide +kernel)
  have ht : toForm 40 (.seq tag writeNames) = some F := hF
  have hall : (match toForm 40 (.seq 0 writeNames) with
      | some F => sameForm F.erase (Form.seqs [.word Tag.KW_WRITE, .group, .word Tag.TK_COMMA, .list .name]) && endsF F && takesAll [] F
      | none => false) = true := by decide +kernel
  rw [hF] at hall
  simp only [Bool.and_eq_true] at hall
  refine C88_form tag writeNames F _ ?_ ?_ ?_ ht hall.1.1 hall.1.2 hall.2 s hs
  · have : (P.seq tag writeNames).good = (P.seq 0 writeNames).good := rfl
    rw [this]; decide +kernel
  · have : (P.seq tag writeNames).starsTake R.takes = (P.seq 0 writeNames).starsTake R.takes := rfl
    rw [this]; decide +kernel
  · have : (P.seq tag writeNames).calls (fun r => R.designates.contains r) = (P.seq 0 writeNames).calls (fun r => R.designates.contains r) := rfl
    rw [this]; decide +kernel

/-- `write(*,100), a, b` has the form, as the parser accepts it. -/
example : GoodStmt commaLine ∧ (Form.seqs [.word Tag.KW_WRITE, .group, .word Tag.TK_COMMA, .list .name]).Is (restOf commaLine) := by
  have hg : GoodStmt commaLine := by
    refine good_of (goodTags_of (by decide +kernel)) (.plain ⟨by decide, by decide, by decide, by decide⟩ ?_)
    refine .paren (a := [Tag.TK_ASTERISK, Tag.TK_COMMA, Tag.SG_INT_LITERAL_CONSTANT]) (b := [Tag.TK_COMMA, Tag.TK_NAME, Tag.TK_COMMA, Tag.TK_NAME])
      ?_ ?_
    · exact .plain ⟨by decide, by decide, by decide, by decide⟩ <| .plain ⟨by decide, by decide, by decide, by decide⟩ <|
        .plain ⟨by decide, by decide, by decide, by decide⟩ .nil
    · exact .plain ⟨by decide, by decide, by decide, by decide⟩ <| .plain ⟨by decide, by decide, by decide, by decide⟩ <|
        .plain ⟨by decide, by decide, by decide, by decide⟩ <| .plain ⟨by decide, by decide, by decide, by decide⟩ .nil
  refine ⟨hg, (C88_write_names 0 _ hg).mp ?_⟩
  have h : holdsFor (runClient (.seq 0 writeNames) 60 commaLine) (fun t _ => t.isSome) = true := by decide +kernel
  match hw : runClient (.seq 0 writeNames) 60 commaLine, h with
  | .ok (some n, t), _ => exact ⟨n, t, client_of 60 hw⟩

end SP
end FLPR
