import Verif.Base
import Verif.FileLine.Model
import Verif.FileLine.Spec
import Verif.FileLine.Lemmas
import Verif.FileLine.Lemmas2
import Verif.FileLine.FreeLemmas
import Verif.FileLine.FreeProps
import Verif.FileLine.FixedLemmas
import Verif.FileLine.FixedProps
import Verif.FileLine.ModLemmas
import Verif.FileLine.ModProps
import Verif.FileLine.ModProps2
import Verif.FileLine.LabelProps
import Verif.LogicalFile.Scan
import Verif.LogicalFile.ScanSpec
import Verif.LogicalFile.ScanLemmas
import Verif.LogicalFile.ScanLemmas2
import Verif.LogicalFile.ScanProps
import Verif.Utils.Model
import Verif.Utils.Props
import Verif.Token.Model
import Verif.Token.Props
import Verif.Misc.LabelStack
import Verif.LogicalLine.Accum
import Verif.Tags.Defs
import Verif.Tags.Smash
import Verif.Tags.SmashProps
import Verif.Tags.Registry
import Verif.Lexer.Regex
import Verif.Lexer.Model
import Verif.Lexer.Lemmas
import Verif.Lexer.Run
import Verif.Lexer.Props
import Verif.Lexer.Words
import Verif.Lexer.Blank
import Verif.LogicalLine.Model
import Verif.LogicalLine.StmtProps
import Verif.LogicalLine.TokLemmas
import Verif.LogicalLine.TokLemmas2
import Verif.LogicalLine.TokProps
import Verif.LogicalLine.RenderProps
import Verif.LogicalLine.Reformat
import Verif.LogicalLine.ReformatLemmas
import Verif.LogicalLine.ReformatLemmas2
import Verif.LogicalLine.ReformatProps
import Verif.LogicalLine.EmptyProps
import Verif.LogicalLine.Edit
import Verif.LogicalLine.EditProps
import Verif.LogicalFile.StmtSrc
import Verif.LogicalFile.StmtSrcProps
import Verif.Lexer.Spell
import Verif.Containers.SafeList
import Verif.Containers.SafeListSpec
import Verif.Containers.SafeListLemmas
import Verif.Containers.SafeListProps
import Verif.Containers.Range
import Verif.Containers.RangeProps
import Verif.Containers.Tree
import Verif.Containers.TreeSpec
import Verif.Containers.TreeLemmas
import Verif.Containers.TreeProps
import Verif.Containers.Cursor
import Verif.Containers.CursorSpec
import Verif.Containers.CursorLemmas
import Verif.Containers.CursorProps
import Verif.StmtParser.Rules
import Verif.StmtParser.Comb
import Verif.StmtParser.Grammar
import Verif.StmtParser.Stream
import Verif.StmtParser.Eval
import Verif.StmtParser.StreamSpec
import Verif.StmtParser.TreeSpec
import Verif.StmtParser.ParserSpec
import Verif.StmtParser.StreamLemmas
import Verif.StmtParser.EvalLemmas
import Verif.StmtParser.NestLemmas
import Verif.StmtParser.CoverLemmas
import Verif.StmtParser.CoverMain
import Verif.StmtParser.Ranks
import Verif.StmtParser.Term
import Verif.StmtParser.Static
import Verif.StmtParser.Mono
import Verif.StmtParser.StreamProps
import Verif.StmtParser.ParserProps
import Verif.Regions.Partition
import Verif.Regions.PartitionSpec
import Verif.Regions.PartitionLemmas
import Verif.Regions.PartitionProps
import Verif.Program.Rules
import Verif.Program.Comb
import Verif.Program.Grammar
import Verif.Program.Eval
import Verif.Program.TreeSpec
import Verif.Program.TreeLemmas
import Verif.Program.Inv
import Verif.Program.Takes
import Verif.Program.Term
import Verif.Program.Static
import Verif.Program.Safe
import Verif.Program.Defined
import Verif.Program.Mono
import Verif.Program.NestSpec
import Verif.Program.NestLemmas
import Verif.Program.Props
import Verif.Program.ShapeSpec
import Verif.Program.Shape
import Verif.Program.ShapeProps
import Verif.Procedure.Model
import Verif.Procedure.Spec
import Verif.Procedure.Lemmas
import Verif.Procedure.Props
import Verif.Procedure.Parsed
import Verif.Procedure.ParsedProps
import Verif.LogicalFile.Convert
import Verif.LogicalFile.ConvertSpec
import Verif.LogicalFile.ConvertLemmas
import Verif.LogicalFile.ConvertReread
import Verif.LogicalFile.ConvertChain
import Verif.LogicalFile.ConvertFile
import Verif.LogicalFile.ConvertCheck
import Verif.LogicalFile.ConvertProps
import Verif.Program.WhereProps
import Verif.Indent.Model
import Verif.Indent.Spec
import Verif.Indent.LineLemmas
import Verif.Indent.TreeLemmas
import Verif.Indent.Known
import Verif.Indent.Defined
import Verif.Indent.Stable
import Verif.Indent.Tables
import Verif.Indent.Props
import Verif.LogicalLine.Split
import Verif.LogicalLine.SplitLemmas
import Verif.LogicalLine.SplitProps
import Verif.LogicalLine.SplitText
import Verif.LogicalLine.SplitMore
import Verif.LogicalLine.SplitEx
import Verif.LogicalFile.SplitStmt
import Verif.LogicalFile.SplitStmtLemmas
import Verif.LogicalFile.SplitStmtOk
import Verif.LogicalFile.SplitStmtProps
import Verif.LogicalFile.SplitStmtMore
import Verif.LogicalFile.SplitStmtEx
import Verif.StmtParser.FormSpec
import Verif.StmtParser.FormRun
import Verif.StmtParser.FormSim
import Verif.StmtParser.FormLang
import Verif.StmtParser.FormCheck
import Verif.StmtParser.FormAcc
import Verif.StmtParser.FormStd
import Verif.StmtParser.FormFlat
import Verif.StmtParser.FormTable
import Verif.StmtParser.FormProps
import Verif.LogicalLine.TextEdit
import Verif.LogicalLine.TextEditSpec
import Verif.LogicalLine.TextEditLemmas
import Verif.LogicalLine.TextEditProps
import Verif.LogicalLine.TextEditMain
import Verif.LogicalLine.TextEditRead
import Verif.FileLine.Reread
import Verif.FileLine.RereadProps
import Verif.LogicalLine.Comment
import Verif.LogicalFile.StmtEdit
import Verif.LogicalFile.StmtEditLemmas
import Verif.LogicalFile.StmtEditProps
import Verif.LogicalFile.StmtEditLabel
import Verif.LogicalFile.StmtEditPlace
import Verif.LogicalFile.StmtEditText
import Verif.LogicalFile.StmtEditSet
import Verif.LogicalFile.StmtEditEx
import Verif.Procedure.Visitor
import Verif.Procedure.VisitorSpec
import Verif.Procedure.VisitorLemmas
import Verif.Procedure.VisitorShape
import Verif.Procedure.VisitorProps
import Verif.Procedure.VisitorFound
import Verif.ParsedFile.Model
import Verif.ParsedFile.Spec
import Verif.ParsedFile.Lemmas
import Verif.ParsedFile.Props
import Verif.Program.AttachSpec
import Verif.Program.Attach
import Verif.Program.AttachProps
import Verif.Procedure.Name
import Verif.Procedure.NameLemmas
import Verif.Procedure.NameProps
import Verif.Procedure.EndStmt
import Verif.Procedure.EndLemmas
import Verif.Procedure.EndProps
import Verif.Procedure.EndEx
import Verif.Format.Model
import Verif.Format.Lemmas
import Verif.Format.Props
import Verif.Format.Ex
import Verif.StmtParser.BuildSpec
import Verif.StmtParser.Build
import Verif.StmtParser.BuildProps
import Verif.Apps.Module
import Verif.Apps.ModuleLemmas
import Verif.Apps.ModuleCall
import Verif.Apps.ModuleFind
import Verif.Apps.ModuleProps
import Verif.Apps.ModuleEx
import Verif.Indent.Reread
import Verif.Indent.RereadOf
import Verif.Indent.RereadComment
import Verif.Indent.RereadFile
import Verif.Indent.RereadGroups
import Verif.Indent.RereadTokens
import Verif.Indent.RereadProps
import Verif.StmtParser.AlikeSpec
import Verif.StmtParser.AlikeLemmas
import Verif.Program.AlikeSpec
import Verif.Program.AlikeLemmas
import Verif.Program.AlikeProps
import Verif.Indent.RereadTree
import Verif.Case.Spec
import Verif.Case.Chars
import Verif.Case.Lines
import Verif.Case.Scan
import Verif.Case.Lexer
import Verif.Case.Tokens
import Verif.Case.FileSpec
import Verif.Case.Props
import Verif.Comment.Runs
import Verif.Comment.Lines
import Verif.Comment.Spec
import Verif.Comment.Build
import Verif.Comment.Note
import Verif.Comment.Props
import Verif.Comment.Fixed
import Verif.Comment.FixedLines
import Verif.Comment.FixedProps
import Verif.StmtParser.ImageSpec
import Verif.StmtParser.ImageFree
import Verif.StmtParser.DesigRun
import Verif.StmtParser.DesigStd
import Verif.StmtParser.DesigLemmas
import Verif.StmtParser.DesigMain
import Verif.StmtParser.DesigProps
import Verif.StmtParser.VarRun
import Verif.StmtParser.VarLemmas
import Verif.StmtParser.VarCheck
import Verif.StmtParser.VarStd
import Verif.StmtParser.VarMain
import Verif.StmtParser.VarAlloc
import Verif.StmtParser.VarProps
import Verif.Apps.Caliper
import Verif.Apps.CaliperPrefix
import Verif.Apps.CaliperLemmas
import Verif.Apps.CaliperProps
import Verif.Apps.CaliperEx
import Verif.StmtParser.IoStd
import Verif.StmtParser.IoRun
import Verif.StmtParser.IoLemmas
import Verif.StmtParser.IoMain
import Verif.StmtParser.IoProps
import Verif.Format.Whole
import Verif.Format.WholeProps
import Verif.Format.WholeEx
import Verif.Format.Ready
import Verif.Format.ReadyEx
import Verif.Program.Cache
import Verif.Program.CacheProps
import Verif.Program.CacheEx
import Verif.StmtParser.HeadSpec
import Verif.StmtParser.HeadLemmas
import Verif.StmtParser.HeadProps
import Verif.StmtParser.Cursor
import Verif.StmtParser.CursorProps
import Verif.StmtParser.LooseProps
import Verif.Apps.ShowCst
import Verif.Apps.ShowCstProps
import Verif.Apps.ShowCstForms
import Verif.StmtParser.Client
import Verif.StmtParser.ClientProps
import Verif.StmtParser.ClientForm
