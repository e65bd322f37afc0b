import Verif.Lemmas.Array
import Verif.Lemmas.ArrayOps
import Verif.Lemmas.Autorelease
import Verif.Lemmas.BinaryTree
import Verif.Lemmas.BitList
import Verif.Lemmas.ByteArray
import Verif.Lemmas.ClassLife
import Verif.Lemmas.Classes
import Verif.Lemmas.Compare
import Verif.Lemmas.ConstString
import Verif.Lemmas.Convert
import Verif.Lemmas.Copying
import Verif.Lemmas.Cost
import Verif.Lemmas.Decimal
import Verif.Lemmas.Describe
import Verif.Lemmas.DictOwn
import Verif.Lemmas.DictOwnRun
import Verif.Lemmas.Dictionary
import Verif.Lemmas.Dispatch
import Verif.Lemmas.EggAdd
import Verif.Lemmas.EggArchive
import Verif.Lemmas.EggClasses
import Verif.Lemmas.EggFile
import Verif.Lemmas.EggMain
import Verif.Lemmas.EggOwn
import Verif.Lemmas.EggOwnRun
import Verif.Lemmas.EggPut
import Verif.Lemmas.EggRead
import Verif.Lemmas.Enum
import Verif.Lemmas.External
import Verif.Lemmas.File
import Verif.Lemmas.Foreach
import Verif.Lemmas.ForeachList
import Verif.Lemmas.ForeachTree
import Verif.Lemmas.Frozen
import Verif.Lemmas.GenericArray
import Verif.Lemmas.Graph
import Verif.Lemmas.GraphTraverse
import Verif.Lemmas.HashTable
import Verif.Lemmas.HashTableRefine
import Verif.Lemmas.Integrity
import Verif.Lemmas.Interchange
import Verif.Lemmas.Intern
import Verif.Lemmas.JsonLoose
import Verif.Lemmas.JsonLooseNum
import Verif.Lemmas.JsonLooseParse
import Verif.Lemmas.JsonLooseStr
import Verif.Lemmas.JsonParse
import Verif.Lemmas.JsonSafe
import Verif.Lemmas.JsonScan
import Verif.Lemmas.Keys
import Verif.Lemmas.LastWrites
import Verif.Lemmas.LinkedList
import Verif.Lemmas.LinkedListPriority
import Verif.Lemmas.ListOwn
import Verif.Lemmas.Making
import Verif.Lemmas.Memory
import Verif.Lemmas.Messages
import Verif.Lemmas.Mutex
import Verif.Lemmas.Names
import Verif.Lemmas.NestedInit
import Verif.Lemmas.NodePool
import Verif.Lemmas.Number
import Verif.Lemmas.ObjLock
import Verif.Lemmas.ParseOwn
import Verif.Lemmas.ParseOwnJson
import Verif.Lemmas.ParseOwnJsonRun
import Verif.Lemmas.ParseOwnTree
import Verif.Lemmas.ParseOwnXml
import Verif.Lemmas.ParseOwnXmlRun
import Verif.Lemmas.Path
import Verif.Lemmas.PoolCalls
import Verif.Lemmas.PoolLive
import Verif.Lemmas.PoolLog
import Verif.Lemmas.PoolQueue
import Verif.Lemmas.PoolStep
import Verif.Lemmas.PoolStop
import Verif.Lemmas.PoolWorkers
import Verif.Lemmas.Predicate
import Verif.Lemmas.Primes
import Verif.Lemmas.Printf
import Verif.Lemmas.Property
import Verif.Lemmas.PropertyRun
import Verif.Lemmas.Query
import Verif.Lemmas.RealTime
import Verif.Lemmas.RefCount
import Verif.Lemmas.RefCountInv
import Verif.Lemmas.RefCountSteps
import Verif.Lemmas.RwLock
import Verif.Lemmas.Semaphore
import Verif.Lemmas.SharedInit
import Verif.Lemmas.SharedReads
import Verif.Lemmas.Shell
import Verif.Lemmas.Startup
import Verif.Lemmas.StrShare
import Verif.Lemmas.StrToNum
import Verif.Lemmas.Text
import Verif.Lemmas.TextEdit
import Verif.Lemmas.TextTrim
import Verif.Lemmas.TextWrap
import Verif.Lemmas.Thread
import Verif.Lemmas.TreeOwn
import Verif.Lemmas.Unicode
import Verif.Lemmas.UnicodeBack
import Verif.Lemmas.UnicodePrev
import Verif.Lemmas.UnicodeScan
import Verif.Lemmas.Url
import Verif.Lemmas.ValueProp
import Verif.Lemmas.Visible
import Verif.Lemmas.XmlAbs
import Verif.Lemmas.XmlAccept
import Verif.Lemmas.XmlBack
import Verif.Lemmas.XmlDesc
import Verif.Lemmas.XmlDoc
import Verif.Lemmas.XmlFin
import Verif.Lemmas.XmlLooseRun
import Verif.Lemmas.XmlReject
import Verif.Lemmas.XmlRun
import Verif.Lemmas.XmlShape
import Verif.Lemmas.XmlTag
import Verif.Model.Accessors
import Verif.Model.Array
import Verif.Model.ArrayOps
import Verif.Model.Autorelease
import Verif.Model.BinaryTree
import Verif.Model.BitList
import Verif.Model.ByteArray
import Verif.Model.ClassLife
import Verif.Model.Classes
import Verif.Model.Clock
import Verif.Model.Compare
import Verif.Model.ConstString
import Verif.Model.Convert
import Verif.Model.Copying
import Verif.Model.Data
import Verif.Model.Decimal
import Verif.Model.Describe
import Verif.Model.DictOwn
import Verif.Model.Dictionary
import Verif.Model.Dispatch
import Verif.Model.Egg
import Verif.Model.EggClasses
import Verif.Model.EggOwn
import Verif.Model.Encoding
import Verif.Model.Enum
import Verif.Model.External
import Verif.Model.File
import Verif.Model.Foreach
import Verif.Model.Frozen
import Verif.Model.GenericArray
import Verif.Model.Graph
import Verif.Model.HashTable
import Verif.Model.Integrity
import Verif.Model.Interchange
import Verif.Model.Intern
import Verif.Model.Json
import Verif.Model.Keys
import Verif.Model.LastWrites
import Verif.Model.LinkedList
import Verif.Model.ListOwn
import Verif.Model.Making
import Verif.Model.Memory
import Verif.Model.Messages
import Verif.Model.Mutex
import Verif.Model.Names
import Verif.Model.NestedInit
import Verif.Model.NodePool
import Verif.Model.Number
import Verif.Model.ObjLock
import Verif.Model.Observe
import Verif.Model.ParseOwn
import Verif.Model.Path
import Verif.Model.PoolRefs
import Verif.Model.Predicate
import Verif.Model.Printf
import Verif.Model.Property
import Verif.Model.Query
import Verif.Model.Range
import Verif.Model.RangeCalls
import Verif.Model.RealTime
import Verif.Model.RefCount
import Verif.Model.RwLock
import Verif.Model.Semaphore
import Verif.Model.SharedInit
import Verif.Model.SharedReads
import Verif.Model.Shell
import Verif.Model.Startup
import Verif.Model.StrShare
import Verif.Model.StrToNum
import Verif.Model.Text
import Verif.Model.TextTrim
import Verif.Model.Thread
import Verif.Model.ThreadCtx
import Verif.Model.ThreadPool
import Verif.Model.TreeOwn
import Verif.Model.Unicode
import Verif.Model.Url
import Verif.Model.ValueProp
import Verif.Model.Visible
import Verif.Model.WString
import Verif.Model.Xml
import Verif.Model.XmlDesc
import Verif.Props.Array
import Verif.Props.ArrayOps
import Verif.Props.Autorelease
import Verif.Props.BinaryTree
import Verif.Props.BitList
import Verif.Props.ByteArray
import Verif.Props.ClassLife
import Verif.Props.Classes
import Verif.Props.Clock
import Verif.Props.Compare
import Verif.Props.ConstString
import Verif.Props.Convert
import Verif.Props.Copying
import Verif.Props.Cost
import Verif.Props.Data
import Verif.Props.Decimal
import Verif.Props.Describe
import Verif.Props.DictOwn
import Verif.Props.Dictionary
import Verif.Props.Dispatch
import Verif.Props.Egg
import Verif.Props.EggClasses
import Verif.Props.EggOwn
import Verif.Props.Encoding
import Verif.Props.Enum
import Verif.Props.External
import Verif.Props.File
import Verif.Props.Foreach
import Verif.Props.Frozen
import Verif.Props.GenericArray
import Verif.Props.Graph
import Verif.Props.HashTable
import Verif.Props.Integrity
import Verif.Props.Interchange
import Verif.Props.Intern
import Verif.Props.Json
import Verif.Props.JsonLoose
import Verif.Props.Keys
import Verif.Props.LastWrites
import Verif.Props.LinkedList
import Verif.Props.ListOwn
import Verif.Props.Making
import Verif.Props.Memory
import Verif.Props.Messages
import Verif.Props.Mutex
import Verif.Props.Names
import Verif.Props.NestedInit
import Verif.Props.NodePool
import Verif.Props.Number
import Verif.Props.ObjLock
import Verif.Props.Observe
import Verif.Props.ParseOwn
import Verif.Props.Path
import Verif.Props.PoolRefs
import Verif.Props.Predicate
import Verif.Props.Printf
import Verif.Props.Property
import Verif.Props.Query
import Verif.Props.Range
import Verif.Props.RealTime
import Verif.Props.RefCount
import Verif.Props.RwLock
import Verif.Props.Semaphore
import Verif.Props.SharedInit
import Verif.Props.SharedReads
import Verif.Props.Shell
import Verif.Props.Startup
import Verif.Props.StrShare
import Verif.Props.StrToNum
import Verif.Props.Text
import Verif.Props.TextEdit
import Verif.Props.TextTrim
import Verif.Props.Thread
import Verif.Props.ThreadCtx
import Verif.Props.ThreadPool
import Verif.Props.TreeOwn
import Verif.Props.Unicode
import Verif.Props.UnicodeBack
import Verif.Props.Url
import Verif.Props.ValueProp
import Verif.Props.Visible
import Verif.Props.WString
import Verif.Props.Xml
import Verif.Props.XmlAccept
import Verif.Props.XmlDesc
import Verif.Spec.Array
import Verif.Spec.Autorelease
import Verif.Spec.BinaryTree
import Verif.Spec.BitList
import Verif.Spec.ByteArray
import Verif.Spec.ClassLife
import Verif.Spec.Classes
import Verif.Spec.Clock
import Verif.Spec.Compare
import Verif.Spec.Convert
import Verif.Spec.Copying
import Verif.Spec.Cost
import Verif.Spec.Data
import Verif.Spec.Decimal
import Verif.Spec.Describe
import Verif.Spec.DictOwn
import Verif.Spec.Dictionary
import Verif.Spec.Dispatch
import Verif.Spec.Egg
import Verif.Spec.EggClasses
import Verif.Spec.EggOwn
import Verif.Spec.Encoding
import Verif.Spec.Enum
import Verif.Spec.External
import Verif.Spec.File
import Verif.Spec.Foreach
import Verif.Spec.Frozen
import Verif.Spec.GenericArray
import Verif.Spec.Graph
import Verif.Spec.HashTable
import Verif.Spec.Interchange
import Verif.Spec.Intern
import Verif.Spec.Json
import Verif.Spec.JsonLoose
import Verif.Spec.Keys
import Verif.Spec.LastWrites
import Verif.Spec.LinkedList
import Verif.Spec.ListOwn
import Verif.Spec.Making
import Verif.Spec.Memory
import Verif.Spec.Messages
import Verif.Spec.Mutex
import Verif.Spec.Names
import Verif.Spec.NestedInit
import Verif.Spec.NodePool
import Verif.Spec.Number
import Verif.Spec.ObjLock
import Verif.Spec.Observe
import Verif.Spec.Order
import Verif.Spec.ParseOwn
import Verif.Spec.Path
import Verif.Spec.Predicate
import Verif.Spec.Printf
import Verif.Spec.Property
import Verif.Spec.Query
import Verif.Spec.Range
import Verif.Spec.RefCount
import Verif.Spec.RwLock
import Verif.Spec.Semaphore
import Verif.Spec.Seq
import Verif.Spec.SharedReads
import Verif.Spec.Shell
import Verif.Spec.Startup
import Verif.Spec.StrShare
import Verif.Spec.StrToNum
import Verif.Spec.Text
import Verif.Spec.TextTrim
import Verif.Spec.Thread
import Verif.Spec.ThreadCtx
import Verif.Spec.ThreadPool
import Verif.Spec.TreeOwn
import Verif.Spec.Unicode
import Verif.Spec.Url
import Verif.Spec.ValueProp
import Verif.Spec.WString
import Verif.Spec.Xml
import Verif.Spec.XmlDesc
import Verif.Spec.XmlLoose
