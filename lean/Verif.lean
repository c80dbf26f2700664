import Verif.Base
import Verif.Dict
import Verif.Edge.Props
import Verif.Flood.Props
import Verif.Flood.Witness
import Verif.Nan.Props
import Verif.Acc.Props
import Verif.Topo.Props
import Verif.Basin.Props
import Verif.Reach.Props
import Verif.Seg.Ungroup
import Verif.Vec.Props
import Verif.Casc.Props
import Verif.Casc.Rows
import Verif.Irun.Props
import Verif.Delin.Props
import Verif.Dirs.Witness
import Verif.Geom.Area
import Verif.Geom.Props
import Verif.Rdata.Witness
import Verif.Rdata.Single
import Verif.Ints.Props
import Verif.Nan.Exact
import Verif.Nse.Props
import Verif.Prms.Props
import Verif.Heap.Props
import Verif.Dtype.Props
import Verif.Dirs.DrainWitness
import Verif.Pipe.Witness
import Verif.Pipe.Packages
import Verif.Pipe.Mf6
import Verif.Store.Props
import Verif.Fail.Negative
import Verif.Torn.Builder
import Verif.Torn.Order
import Verif.Torn.Refine
import Verif.Fail.Session
import Verif.Top.Props
import Verif.Float.Witness
import Verif.Float.ChainWitness
import Verif.Flood.AgainWitness
import Verif.Flood.ShiftWitness
import Verif.Flood.CompareWitness
import Verif.Acc.Time
import Verif.Acc.Reroute
import Verif.Basin.Cross
import Verif.Basin.Order
import Verif.Basin.Single
import Verif.Basin.Stale
import Verif.Basin.Zero
import Verif.Dirs.Burn
import Verif.Pipe.Burn
import Verif.Flood.Sweeps
import Verif.Flood.Error
import Verif.Flood.ErrorWitness
import Verif.Reach.PackProps
import Verif.Dirs.Scale
import Verif.Dirs.Renumber
import Verif.Acc.Linear
import Verif.Float.Nan
import Verif.Nodata.Witness
import Verif.Float.GettersWitness
import Verif.Delin.Control
import Verif.Float.Casc
import Verif.Float.Rect
import Verif.Seg.Count
import Verif.Seg.Repeat
import Verif.Pipe.Circles
import Verif.Dirs.Cost
import Verif.Pipe.Rect
import Verif.Pipe.RectWitness
import Verif.Pipe.Gaps
import Verif.Cache.Model
import Verif.Cache.Props
import Verif.Prms.Couple
import Verif.Rdata.Outlet
import Verif.Topo.Dfs
import Verif.Seg.Agree
import Verif.Prms.Ungrouped
import Verif.Seg.Stray
import Verif.Seg.Same
import Verif.Pipe.Gsflow
import Verif.Pipe.Drawn
import Verif.Pipe.Clip
import Verif.Pipe.GsflowWitness
import Verif.Pipe.Balance
import Verif.Pipe.BalanceWitness
import Verif.Geom.Similar
import Verif.Pipe.Units
import Verif.Reach.Units
import Verif.Nan.Similar
import Verif.Prms.Units
import Verif.Pipe.River
import Verif.Pipe.Prune
import Verif.Pipe.Segbasin
import Verif.Pipe.Watercasc
import Verif.Float.Balance
import Verif.Float.Control
import Verif.Float.Gaps
import Verif.Dirs.Error
import Verif.Pipe.Error
import Verif.Flood.Local
import Verif.Flood.LocalWitness
import Verif.Dirs.Local
import Verif.Pipe.Away
import Verif.Pipe.Renumber
import Verif.Flood.Mask
import Verif.Flood.MaskWitness
import Verif.Flood.MaskMore
import Verif.Pipe.Renumber2
import Verif.Pipe.Terminal
import Verif.Reach.Ncon
import Verif.Pipe.Tables
import Verif.Rdata.Units
import Verif.Pipe.Mirror
import Verif.Pipe.MirrorWitness
import Verif.Pipe.Runoff
import Verif.Pipe.Samegeo
import Verif.Pipe.Turn
import Verif.Pipe.TurnWitness
import Verif.Pipe.Window
import Verif.Pipe.WindowWitness
import Verif.Flood.Cut
import Verif.Flood.CutWitness
import Verif.Pipe.Sub
import Verif.Float.Area
import Verif.Rdata.Rounded
import Verif.Reach.Rounded
import Verif.Rdata.BuildF
import Verif.Nse.Rounded
import Verif.Irun.Time
import Verif.Basin.Time
import Verif.Basin.Walk
import Verif.Flood.Time
import Verif.Topo.Time
import Verif.Seg.Time
