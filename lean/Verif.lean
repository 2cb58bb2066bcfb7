import Verif.Base.Res
import Verif.Base.Bytes
import Verif.Msgpack.Model
import Verif.Msgpack.Lemmas
import Verif.Wal.Crc
import Verif.Wal.CrcLemmas
import Verif.Wal.Model
import Verif.Wal.Spec
import Verif.Wal.Lemmas
import Verif.Wal.History
import Verif.Wal.Crash
import Verif.Wal.Props
import Verif.File.Props
import Verif.Spinlock.Props
import Verif.SegLookup.Props
import Verif.Validity.Alias
import Verif.Mvcc.Props
import Verif.TableId.Props
import Verif.Metadata.Props
import Verif.GapTracker.Props
import Verif.Block.Restore
import Verif.Block.SplitUniq
import Verif.SegTree.Queries
import Verif.BTree.Props
import Verif.BTree.Ids
import Verif.IndexDisk.Props
import Verif.Trie.Props
import Verif.CompSchema.Props
import Verif.SchemaTxn.Props
import Verif.PhysKey.Props
import Verif.LogVal.Props
import Verif.DocVal.Props
import Verif.Query.Props
import Verif.Query.WriteProps
import Verif.Query.IndexProps
import Verif.Query.SortProps
import Verif.Query.AggProps
import Verif.Query.GroupProps
import Verif.Query.JoinProps
import Verif.Json.Props
import Verif.Json.MergeProps
import Verif.Update.Props
import Verif.Node.Model
import Verif.Node.Spec
import Verif.Node.LogLemmas
import Verif.Node.LogProps
import Verif.Node.SeqLemmas
import Verif.Node.DdlProps
import Verif.Node.DurSpec
import Verif.Node.DurLemmas
import Verif.Node.CleanProps
import Verif.Node.ContentProps
import Verif.Node.CrashLemmas
import Verif.Node.AgentLemmas
import Verif.Node.RecoverLemmas
import Verif.Node.CrashProps
import Verif.DocPack.Model
import Verif.DocPack.Spec
import Verif.DocPack.Lemmas
import Verif.DocPack.Props
import Verif.PlanPack.Props
import Verif.Wrapper.Props
import Verif.Session.Props
import Verif.Cursor.Props
import Verif.Sql.Props
import Verif.Sql.SelectProps
import Verif.Sql.JoinProps
import Verif.Sql.DeleteProps
import Verif.Sql.UpdateProps
import Verif.Sql.InsertProps
import Verif.Sql.InsertSelectProps
import Verif.Sql.UpdateFromProps
import Verif.Oid.Props
import Verif.Table.Props
import Verif.Table.Reuse
import Verif.Table.OpsProps
import Verif.ChunkOp.MatchProps
import Verif.ChunkOp.JoinProps
import Verif.ChunkOp.SortProps
import Verif.ChunkOp.GroupProps
import Verif.Table.IndexProps
import Verif.Ddl.Props
import Verif.DiskIdx.Props
import Verif.IdxReg.Props
import Verif.VecVal.Props
import Verif.Share.Props
import Verif.CApi.Props
import Verif.TextSeg.Props
import Verif.Py.Props
import Verif.Py.FindProps
import Verif.Py.UpdProps
import Verif.Buf.Props
import Verif.Text.Props
import Verif.NestCol.Props
import Verif.Table.UpdateProps
import Verif.Arrow.Props
import Verif.Arrow.SchemaProps
import Verif.Lex.Props
import Verif.Place.Props
import Verif.Node.AnswerProps
import Verif.DocSchema.Props
import Verif.Py.DelProps
import Verif.Py.CurProps
import Verif.Lex.MultiProps
import Verif.Node.SizeProps
import Verif.Py.NamesProps
import Verif.Node.CStartProps
import Verif.Glob.Props
import Verif.Glob.FilesProps
import Verif.Arrow.MetaProps
import Verif.WalId.Props
import Verif.IdxReg.FileReal
import Verif.VecSel.Props
import Verif.VecHash.Props
import Verif.VecCache.Props
import Verif.UVec.Props
import Verif.VFs.Props
import Verif.ABuf.Props
