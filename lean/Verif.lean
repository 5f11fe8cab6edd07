import Verif.Common.PyDict
import Verif.Lru.Theorems
import Verif.CacheFn.Theorems
import Verif.Path.Theorems
import Verif.BagManager.Examples
import Verif.BagManager.LivenessTheorems
import Verif.BagManager.FileNamesTheorems
import Verif.View.OpTheorems
import Verif.ObjectId.AllocTheorems
import Verif.ObjectId.SetTheorems
import Verif.ObjectId.KindTheorems
import Verif.Uuid.InputTheorems
import Verif.Uuid.UuidTheorems
import Verif.Uuid.AggTheorems
import Verif.Schema.Theorems
import Verif.Base62.Theorems
import Verif.DataList.Theorems
import Verif.BagFork.Theorems
import Verif.Dict.Theorems
import Verif.Binding.Theorems
import Verif.Stream.Theorems
import Verif.Future.Theorems
import Verif.StreamMap.Theorems
import Verif.StreamMapUnordered.Theorems
import Verif.StreamChain.Theorems
import Verif.StreamInterleave.Theorems
import Verif.StreamLoop.Theorems
import Verif.SliceManager.Theorems
import Verif.SliceBuilder.Theorems
import Verif.TypesBuffer.Theorems
import Verif.SchemaHelper.Theorems
import Verif.BagAttr.Theorems
import Verif.BagWorld.Theorems
import Verif.JsonStream.Theorems
import Verif.JsonSalvage.Theorems
import Verif.Traverse.Theorems
import Verif.Compare.Theorems
import Verif.SliceOps.Theorems
import Verif.SliceOps.TheoremsGroup
import Verif.AsyncEval.Theorems
import Verif.Clone.Theorems
import Verif.Functor.Theorems
import Verif.Functor.CacheTheorems
import Verif.While.Theorems
import Verif.Trampoline.Theorems
import Verif.MapFn.Theorems
import Verif.S11n.Theorems
import Verif.BagSave.Theorems
import Verif.SigCompat.Theorems
import Verif.Visitor.Theorems
import Verif.Sanitize.Theorems
import Verif.Flatten.Theorems
import Verif.Coalesce.Theorems
import Verif.EqualOp.Theorems
import Verif.NewIds.Theorems
import Verif.Reshape.Theorems
