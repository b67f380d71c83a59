import Verif.Coord.Model
import Verif.Coord.Lemmas
import Verif.Coord.Props
import Verif.PackedCell.Model
import Verif.PackedCell.Props
import Verif.A1.Model
import Verif.A1.Lemmas
import Verif.A1.Props
import Verif.SheetRef.Model
import Verif.SheetRef.Props
import Verif.Dates.Calendar
import Verif.Dates.Model
import Verif.Dates.Props
import Verif.Dates.Builtins
import Verif.Dates.BuiltinProps
import Verif.DirtyLease.Model
import Verif.DirtyLease.Props
import Verif.Stripes.Model
import Verif.Stripes.Props
import Verif.Dirty.Model
import Verif.Dirty.Props
import Verif.Dirty.ValueCells
import Verif.Edges.Model
import Verif.Edges.Lemmas
import Verif.Edges.Props
import Verif.Interval.Model
import Verif.Interval.Props
import Verif.SheetIndex.Model
import Verif.SheetIndex.Props
import Verif.Sched.Kahn
import Verif.Sched.Model
import Verif.Sched.Tarjan
import Verif.Sched.Layers
import Verif.Sched.Condense
import Verif.Sched.Props
import Verif.Topo.Model
import Verif.Topo.Lemmas
import Verif.Topo.Props
import Verif.Undo.Log
import Verif.Undo.LogProps
import Verif.Undo.Model
import Verif.Undo.Props
import Verif.Adjust.Model
import Verif.Adjust.Tree
import Verif.Adjust.Props
import Verif.Adjust.Edit
import Verif.Adjust.Names
import Verif.Adjust.Grid
import Verif.Token.Model
import Verif.Token.Props
import Verif.Pretty.Model
import Verif.Pretty.Fuel
import Verif.Pretty.Props
import Verif.Pretty.Prec
import Verif.Pretty.Text
import Verif.Pretty.Run
import Verif.Pretty.TextProps
import Verif.Spill.Locks
import Verif.Spill.Model
import Verif.Spill.Registry
import Verif.Spill.Rollback
import Verif.Spill.Eval
import Verif.Spill.Outcome
import Verif.Spill.Findings
import Verif.Recalc.Model
import Verif.Recalc.Run
import Verif.Recalc.Spec
import Verif.Recalc.Pass
import Verif.Recalc.Edit
import Verif.Recalc.All
import Verif.Recalc.Demand
import Verif.Recalc.History
import Verif.Recalc.Plan
import Verif.Recalc.Findings
import Verif.Lookup.Wild
import Verif.Lookup.Search
import Verif.Lookup.Like
import Verif.Lookup.Criteria
import Verif.Lookup.CriteriaParse
import Verif.Lookup.Match
import Verif.Lookup.Exact
import Verif.Store.Lanes
import Verif.Store.Fragment
import Verif.Store.Pieces
import Verif.Store.Cuts
import Verif.Store.Overlay
import Verif.Store.Cascade
import Verif.Store.Sheet
import Verif.Store.Cells
import Verif.Store.Layout
import Verif.Store.Rows
import Verif.Store.Growth
import Verif.Store.History
import Verif.Store.Ingest
import Verif.Plane.Region
import Verif.Plane.Index
import Verif.Plane.IndexProps
import Verif.Plane.IndexQuery
import Verif.Plane.Project
import Verif.Plane.ProjectProps
import Verif.Plane.Closure
import Verif.Plane.ClosureProps
import Verif.Plane.Reads
import Verif.Plane.ReadsProps
import Verif.Plane.ShiftProps
import Verif.Plane.ShiftSplit
import Verif.Plane.ShiftRun
import Verif.Plane.ShiftCompact
import Verif.Plane.ShiftWrong
import Verif.Arena.ValueThms
import Verif.Arena.AstFinal
import Verif.Sheets.Thms
import Verif.Sheets.HealFinal
import Verif.Template.Thms
import Verif.Template.Shared
import Verif.Template.ShiftWrong
import Verif.Template.MemoWrong
import Verif.Arrays.Shapes
import Verif.Texts.Split
import Verif.Ops.Cells
import Verif.Ops.Order
import Verif.Ops.Ranges
import Verif.Local.Lexical
import Verif.Scc.Cases
import Verif.Scc.Conv
import Verif.Base.Convert
import Verif.Base.Roman
import Verif.Rows.Props
import Verif.Agg.Laws
import Verif.Snap.Used
import Verif.Snap.Index
import Verif.Order.Laws
import Verif.Fin.Rates
import Verif.Fin.Depr
import Verif.Solve.Rate
import Verif.Round.Count
import Verif.Spool.Shared
import Verif.Evid.Bound
import Verif.Struct.Print
import Verif.Tables.Names
import Verif.Csv.Sheet
import Verif.Ledger.Limits
import Verif.Trans.Saves
import Verif.RefFn.Array
import Verif.RefFn.Address
import Verif.Logic.Branch
import Verif.Delta.Changes
import Verif.Pairs.Cells
import Verif.Json.Props
import Verif.Json.Sheets
import Verif.Dbase.Order
import Verif.Engin.Arith
import Verif.Ops.Extents
import Verif.SelfRef.Props
import Verif.SumIf.Props
import Verif.SumProd.Props
import Verif.Route.Load
import Verif.Days.Week
import Verif.Days.Price
import Verif.Port.Batch
import Verif.Port.Range
import Verif.Contract.Fails
import Verif.Chars.Props
import Verif.Rng.Props
import Verif.NumFmt.Props
import Verif.Options.Props
import Verif.Lookup.Legacy
import Verif.TextFn.Props
import Verif.TextFn.Dates
import Verif.TextFn.NumberValue
import Verif.TextFn.DateValue
import Verif.Token.Colon
