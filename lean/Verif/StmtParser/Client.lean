import Verif.StmtParser.ParserSpec
/-!
# Model of extension parsers made of the combinators (apps/ext_demo.cc)

An extension parser is a function of a client program.  `ext_demo` makes two of them from the combinators of
Stmt_Parsers.hh and the rule functions of parse_stmt.cc, `constexpr auto p = ...; return p(ts);`.

Simplification: a rule function that such a parser calls finds no extension registered.  Only `action_stmt` and
`other_specification_stmt` look at them, and the parsers of `ext_demo` do not call these.
-/

namespace FLPR
namespace SP

/-- `constexpr auto p = ...; return p(ts);` with a bound. -/
def runClient (p : P) (n : Nat) (s : Strm) : PRes (Option SNode × Strm) :=
  runBody Spec.noExts (eval R.body Spec.noExts n) n (.comb p) s

/-- ext_demo.cc:122-131 `write_comma_stmt` and, with `MY_WRITE_STMT` (ext_demo.cc:35-39) as the tag, 134-143
`write_comma_stmt_mytag`. -/
def writeComma (tag : Int) : P :=
  .seq tag [.tok Tag.KW_WRITE, .tagIf Tag.SG_IO_CONTROL_SPEC_LIST (.rule .consume_parens), .tok Tag.TK_COMMA,
    .opt (.list Tag.SG_OUTPUT_ITEM_LIST (.rule .output_item)), .peek Tag.BAD]

/-- ext_demo.cc:35-39. -/
def myWriteStmt : Int := Tag.CLIENT_EXTENSION + 1

end SP

namespace Spec
open SP

/-- Calling the parser on the stream gives this result. -/
def ClientReturns (p : P) (s : Strm) (res : Res (Option SNode × Strm)) : Prop :=
  ∃ N, ∀ n, N ≤ n → runClient p n s = up res

/-- The extension is this parser.  A stream that is not within its tokens is undefined. -/
def Implements (e : Ext) (p : P) : Prop :=
  ∀ s, (s.all.length + 1 < s.pos → e s = .error .ub) ∧
    (s.pos ≤ s.all.length + 1 → ∀ res, ClientReturns p s res → e s = res.map fun w => (w.1, w.2.pos))

end Spec
end FLPR
