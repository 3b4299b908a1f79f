import Verif.Ast.Apart
import Verif.Ast.Arity
import Verif.Ast.Assign
import Verif.Ast.Calls
import Verif.Ast.Denote
import Verif.Ast.Endless
import Verif.Ast.Flat
import Verif.Ast.Inline
import Verif.Ast.Lemmas
import Verif.Ast.Link
import Verif.Ast.LinkFn
import Verif.Ast.Model
import Verif.Ast.Moved
import Verif.Ast.Props
import Verif.Ast.Rename
import Verif.Ast.Rounds
import Verif.Ast.Sound
import Verif.Ast.SoundUnique
import Verif.Ast.Spec
import Verif.Ast.Unused
import Verif.Cache.Examples
import Verif.Cache.History
import Verif.Cache.Model
import Verif.Cache.Overlap
import Verif.Cache.OverlapExamples
import Verif.Cache.Props
import Verif.Cache.Sessions
import Verif.Cache.Unneeded
import Verif.Cache.UpToDate
import Verif.Cache.WorkingDir
import Verif.Cache.WorkingDirExamples
import Verif.Cache.WorkingDirProps
import Verif.Cell.Errors
import Verif.Cell.Errors2
import Verif.Cell.Lemmas
import Verif.Cell.Lists
import Verif.Cell.Model
import Verif.Cell.Order
import Verif.Cell.Possible
import Verif.Cell.Props
import Verif.Cell.Read
import Verif.Cell.Read2
import Verif.Cell.Read3
import Verif.Cell.Read4
import Verif.Cell.Read5
import Verif.Cell.Read6
import Verif.Cell.Rows
import Verif.Cell.Safe
import Verif.Cell.Safe2
import Verif.Cell.Spec
import Verif.Cli.Again
import Verif.Cli.Alike
import Verif.Cli.Alone
import Verif.Cli.Apart
import Verif.Cli.ApartExample
import Verif.Cli.Cells
import Verif.Cli.CommandLine
import Verif.Cli.CommandLineMeaning
import Verif.Cli.CommandLineProgram
import Verif.Cli.CommandLineProps
import Verif.Cli.Compiled
import Verif.Cli.Contents
import Verif.Cli.EditModules
import Verif.Cli.EditTargets
import Verif.Cli.Examples
import Verif.Cli.Incremental
import Verif.Cli.IncrementalExample
import Verif.Cli.Inline
import Verif.Cli.InlineExample
import Verif.Cli.InlineModules
import Verif.Cli.Insert
import Verif.Cli.InsertColumns
import Verif.Cli.InsertColumnsProgram
import Verif.Cli.InsertProgram
import Verif.Cli.Interrupted
import Verif.Cli.KeyValues
import Verif.Cli.LineEnds
import Verif.Cli.Loaded
import Verif.Cli.Local
import Verif.Cli.Meaning
import Verif.Cli.MeaningExample
import Verif.Cli.Messages
import Verif.Cli.Model
import Verif.Cli.Modules
import Verif.Cli.ModulesExample
import Verif.Cli.OneFile
import Verif.Cli.OneResult
import Verif.Cli.Options
import Verif.Cli.OptionsExample
import Verif.Cli.Order
import Verif.Cli.Props
import Verif.Cli.Rearranged
import Verif.Cli.Rows
import Verif.Cli.Run
import Verif.Cli.Safety
import Verif.Cli.SafetyExample
import Verif.Cli.Sound
import Verif.Cli.SoundModules
import Verif.Cli.Split
import Verif.Cli.Unneeded
import Verif.Cli.Unsettled
import Verif.Cli.Workbook
import Verif.Cli.WorkbookExample
import Verif.Cli.WriteOut
import Verif.Csvp.Core
import Verif.Csvp.Glue
import Verif.Csvp.Lemmas
import Verif.Csvp.Model
import Verif.Csvp.Naive
import Verif.Csvp.Props
import Verif.Csvp.Quoted
import Verif.Csvp.Render
import Verif.Csvp.Spec
import Verif.Date.Options
import Verif.Date.Prompt
import Verif.Loader.Deps
import Verif.Loader.Dirty
import Verif.Loader.Examples
import Verif.Loader.Graph
import Verif.Loader.Linked
import Verif.Loader.Main
import Verif.Loader.Meaning
import Verif.Loader.Merge
import Verif.Loader.Misread
import Verif.Loader.Model
import Verif.Loader.Outcome
import Verif.Loader.Program
import Verif.Loader.Props
import Verif.Loader.Resolve
import Verif.Loader.Spec
import Verif.Object.Codec
import Verif.Object.Examples
import Verif.Object.Laws
import Verif.Object.Model
import Verif.Object.Props
import Verif.Object.Together
import Verif.Object.TogetherExample
import Verif.Object.Writes
import Verif.Parser.Blame
import Verif.Parser.BlameProps
import Verif.Parser.Code
import Verif.Parser.CodeSpec
import Verif.Parser.Fuel
import Verif.Parser.Layout
import Verif.Parser.Lex
import Verif.Parser.Lexical
import Verif.Parser.Message
import Verif.Parser.Model
import Verif.Parser.Pratt
import Verif.Parser.Print
import Verif.Parser.Props
import Verif.Parser.Reread
import Verif.Parser.Result
import Verif.Parser.Spec
import Verif.Parser.Unambiguous
import Verif.Sheet.Covers
import Verif.Sheet.Errors
import Verif.Sheet.Formula
import Verif.Sheet.Model
import Verif.Sheet.Props
import Verif.Sheet.Refs
import Verif.Sheet.Rename
import Verif.Sheet.Spec
import Verif.Sheet.Unused
import Verif.Source.Lemmas
import Verif.Source.Model
import Verif.Source.Props
import Verif.Target.Cli
import Verif.Target.Csv
import Verif.Target.CsvProps
import Verif.Target.Excel
import Verif.Target.ExcelOptions
import Verif.Target.ExcelProps
import Verif.Target.FileProps
import Verif.Target.Google
import Verif.Target.GoogleCells
import Verif.Target.GoogleExact
import Verif.Target.GoogleMeaning
import Verif.Target.GoogleOutside
import Verif.Target.GoogleProps
import Verif.Target.GoogleRun
import Verif.Target.GoogleRunProps
import Verif.Target.Interrupted
import Verif.Target.Model
import Verif.Target.Offset
import Verif.Target.Path
import Verif.Target.Run
import Verif.Target.Together
import Verif.Target.TogetherBook
import Verif.Target.TogetherMore
import Verif.Text
