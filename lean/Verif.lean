import Verif.Basic
import Verif.Spec
import Verif.Order
import Verif.LLRB.Model
import Verif.LLRB.Inv
import Verif.LLRB.Insert
import Verif.LLRB.Delete
import Verif.LLRB.Api
import Verif.LLRB.Read
import Verif.LLRB.History
import Verif.LLRB.Depth
import Verif.LLRB.Calls
import Verif.Cmp
import Verif.Props.Cmp
import Verif.Props.Sample
import Verif.Props.LLRB
import Verif.BTree.Model
import Verif.BTree.LruProofs
import Verif.BTree.State
import Verif.BTree.Prim
import Verif.BTree.PrefixSum
import Verif.BTree.Ghost
import Verif.BTree.Assert
import Verif.BTree.Load
import Verif.BTree.Descend
import Verif.BTree.Up
import Verif.BTree.Due
import Verif.BTree.Rest
import Verif.BTree.Spot
import Verif.BTree.Insert
import Verif.BTree.Delete
import Verif.BTree.Walk
import Verif.BTree.Flush
import Verif.BTree.Report
import Verif.BTree.Leads
import Verif.BTree.Open
import Verif.BTree.Still
import Verif.BTree.Putting
import Verif.Api
import Verif.BTree.Scene
import Verif.BTree.Places
import Verif.Props.Run
import Verif.Props.Snap
import Verif.Props.Same
import Verif.Props.Reach
import Verif.Props.Disk
import Verif.Props.BTree
import Verif.Props.Store
import Verif.BTree.Shape
import Verif.BTree.Drainer
import Verif.Props.Shape
import Verif.BTree.Counts
import Verif.BTree.Reads
import Verif.BTree.Cost
import Verif.BTree.Once
import Verif.BTree.Away
import Verif.BTree.Scan
import Verif.Props.Lru
import Verif.Props.Cost
import Verif.Props.Writes
import Verif.Props.Valid
import Verif.Props.Memory
import Verif.Props.Faults
import Verif.Props.Prune
import Verif.Props.Alone
import Verif.BTree.Codec
import Verif.Props.Codec
import Verif.Conc.Locks
import Verif.Conc.LocksProofs
import Verif.Conc.Lin
import Verif.Conc.Split
import Verif.LLRB.All
import Verif.Conc.Own
import Verif.Conc.Conf
import Verif.Conc.ConfApi
import Verif.Conc.Many
import Verif.Conc.ManyMaps
import Verif.Props.Conc
import Verif.Props.ConcMany
import Verif.Props.Limits
import Verif.BTree.Dump
import Verif.BTree.DumpProofs
import Verif.LLRB.Dump
import Verif.Props.Dump
import Verif.Props.Beside
import Verif.BTree.Short
import Verif.Props.Short
import Verif.Props.Release
import Verif.Props.Once
