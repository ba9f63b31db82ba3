import Verif.Py.Basic
import Verif.Py.Decimal
import Verif.Py.DictLemmas
import Verif.Py.Json
import Verif.Py.StrLemmas
import Verif.Model.Bagger
import Verif.Model.CommandLine
import Verif.Model.Concurrent
import Verif.Model.Digest
import Verif.Model.Document
import Verif.Model.DocumentVersion
import Verif.Model.Env
import Verif.Model.FS
import Verif.Model.Fsw
import Verif.Model.FswTree
import Verif.Model.Inventory
import Verif.Model.InventoryJson
import Verif.Model.InventoryValidator
import Verif.Model.JsonLib
import Verif.Model.Layout
import Verif.Model.LayoutIO
import Verif.Model.Logger
import Verif.Model.Many
import Verif.Model.Messages
import Verif.Model.Namaste
import Verif.Model.NamasteOs
import Verif.Model.NewVersion
import Verif.Model.Object
import Verif.Model.ObjectCli
import Verif.Model.ObjectState
import Verif.Model.ObjectUtils
import Verif.Model.Paths
import Verif.Model.PriorVersion
import Verif.Model.Prog
import Verif.Model.PyJson
import Verif.Model.Quote
import Verif.Model.RootCli
import Verif.Model.RootState
import Verif.Model.Setters
import Verif.Model.Sharing
import Verif.Model.SidecarCli
import Verif.Model.StorageLog
import Verif.Model.StorageRoot
import Verif.Model.Together
import Verif.Model.TreeView
import Verif.Model.Validation
import Verif.Model.Validator
import Verif.Model.VersionMetadata
import Verif.Model.W3CDatetime
import Verif.Spec.Apart
import Verif.Spec.Bag
import Verif.Spec.Chain
import Verif.Spec.Complete
import Verif.Spec.DatedHistory
import Verif.Spec.Deposits
import Verif.Spec.Digest
import Verif.Spec.Document
import Verif.Spec.FS
import Verif.Spec.History
import Verif.Spec.Inventory
import Verif.Spec.InventoryRules
import Verif.Spec.InventoryShape
import Verif.Spec.Jobs
import Verif.Spec.Lax
import Verif.Spec.Layout
import Verif.Spec.LayoutConfig
import Verif.Spec.Messages
import Verif.Spec.Namaste
import Verif.Spec.NewVersion
import Verif.Spec.Object
import Verif.Spec.ObjectState
import Verif.Spec.Prefix
import Verif.Spec.PriorVersion
import Verif.Spec.Recipe
import Verif.Spec.Reorder
import Verif.Spec.Repository
import Verif.Spec.RollBack
import Verif.Spec.RootState
import Verif.Spec.SameContents
import Verif.Spec.Series
import Verif.Spec.Session
import Verif.Spec.Setters
import Verif.Spec.Sharing
import Verif.Spec.State
import Verif.Spec.StorageLog
import Verif.Spec.StorageRoot
import Verif.Spec.StoreHistory
import Verif.Spec.Thrifty
import Verif.Spec.Together
import Verif.Spec.TreeView
import Verif.Spec.UnknownKeys
import Verif.Spec.Update
import Verif.Spec.ValidObject
import Verif.Spec.Verdict
import Verif.Spec.VersionDir
import Verif.Spec.W3CDatetime
import Verif.Proofs.AddFiles
import Verif.Proofs.AddSource
import Verif.Proofs.Alike
import Verif.Proofs.AlikeRoot
import Verif.Proofs.Apart
import Verif.Proofs.Beside
import Verif.Proofs.BuildDirs
import Verif.Proofs.BuildSound
import Verif.Proofs.BuildSucceeds
import Verif.Proofs.Clean
import Verif.Proofs.ContentNames
import Verif.Proofs.CopyMoment
import Verif.Proofs.CopyValid
import Verif.Proofs.Crash
import Verif.Proofs.CreateDone
import Verif.Proofs.CreateSucceeds
import Verif.Proofs.DepositOrder
import Verif.Proofs.Deposits
import Verif.Proofs.Describes
import Verif.Proofs.Digest
import Verif.Proofs.DigestMap
import Verif.Proofs.Document
import Verif.Proofs.Extract
import Verif.Proofs.ExtractMore
import Verif.Proofs.ExtractOne
import Verif.Proofs.ExtractSame
import Verif.Proofs.ExtractTop
import Verif.Proofs.FS
import Verif.Proofs.Filled
import Verif.Proofs.FirstVersion
import Verif.Proofs.Good
import Verif.Proofs.GoodPerm
import Verif.Proofs.GoodVersion
import Verif.Proofs.Inventory
import Verif.Proofs.InventoryIff
import Verif.Proofs.InventoryJson
import Verif.Proofs.InventoryNoRaise
import Verif.Proofs.InventorySpec
import Verif.Proofs.InventoryText
import Verif.Proofs.InventoryValidator
import Verif.Proofs.InventoryVersions
import Verif.Proofs.Jobs
import Verif.Proofs.KeepStep
import Verif.Proofs.KeepsValid
import Verif.Proofs.Lax
import Verif.Proofs.Layout
import Verif.Proofs.Local
import Verif.Proofs.LocalObject
import Verif.Proofs.Many
import Verif.Proofs.Messages
import Verif.Proofs.MetaAt
import Verif.Proofs.Metadata
import Verif.Proofs.Namaste
import Verif.Proofs.NewSidecar
import Verif.Proofs.NewVersion
import Verif.Proofs.NextGround
import Verif.Proofs.NoDifference
import Verif.Proofs.NoDigests
import Verif.Proofs.Normalize
import Verif.Proofs.ObjPaths
import Verif.Proofs.Only
import Verif.Proofs.Parse
import Verif.Proofs.Paths
import Verif.Proofs.Place
import Verif.Proofs.PlainCalls
import Verif.Proofs.PriorVersion
import Verif.Proofs.PyJson
import Verif.Proofs.PyJsonPrefix
import Verif.Proofs.Reader
import Verif.Proofs.Recipe
import Verif.Proofs.RecipeBuild
import Verif.Proofs.Recode
import Verif.Proofs.Recover
import Verif.Proofs.Rehash
import Verif.Proofs.Reorder
import Verif.Proofs.Repository
import Verif.Proofs.Session
import Verif.Proofs.Sidecar
import Verif.Proofs.Sound
import Verif.Proofs.SoundValid
import Verif.Proofs.StartVersion
import Verif.Proofs.StorageLog
import Verif.Proofs.StoreAdd
import Verif.Proofs.StoreInit
import Verif.Proofs.StoreListing
import Verif.Proofs.StoreSound
import Verif.Proofs.StoreStructure
import Verif.Proofs.Thrifty
import Verif.Proofs.Timestamps
import Verif.Proofs.TreeView
import Verif.Proofs.UpdateDigest
import Verif.Proofs.UpdateSucceeds
import Verif.Proofs.Utf8
import Verif.Proofs.ValidatorContent
import Verif.Proofs.ValidatorIff
import Verif.Proofs.ValidatorObject
import Verif.Proofs.ValidatorRoot
import Verif.Proofs.ValidatorSteps
import Verif.Proofs.ValidatorVerdict
import Verif.Proofs.ValidatorVersions
import Verif.Proofs.VersionDir
import Verif.Proofs.VersionSequence
import Verif.Proofs.W3CDatetime
import Verif.Proofs.Walk
import Verif.Proofs.WriteDone
import Verif.Proofs.WriteInv
import Verif.Proofs.WriteVersion
import Verif.Props.Apart
import Verif.Props.BagDemo
import Verif.Props.Bagger
import Verif.Props.Build
import Verif.Props.BuildSucceeds
import Verif.Props.ChangeDigest
import Verif.Props.CommandLine
import Verif.Props.Concurrent
import Verif.Props.Crash
import Verif.Props.CreateSucceeds
import Verif.Props.Deposits
import Verif.Props.Digest
import Verif.Props.Document
import Verif.Props.DocumentVersion
import Verif.Props.ExampleBag
import Verif.Props.ExampleObject
import Verif.Props.ExampleStore
import Verif.Props.Fixity
import Verif.Props.Fsw
import Verif.Props.History
import Verif.Props.HistoryLimits
import Verif.Props.Interrupted
import Verif.Props.InterruptedBuild
import Verif.Props.InterruptedDemo
import Verif.Props.Inventory
import Verif.Props.InventoryValidator
import Verif.Props.Isolation
import Verif.Props.Lax
import Verif.Props.Layout
import Verif.Props.LayoutConfig
import Verif.Props.LibraryValid
import Verif.Props.Life
import Verif.Props.Logger
import Verif.Props.Logs
import Verif.Props.Messages
import Verif.Props.Metadata
import Verif.Props.Missing
import Verif.Props.Namaste
import Verif.Props.NamasteOs
import Verif.Props.NewInventory
import Verif.Props.NewVersion
import Verif.Props.NoDifference
import Verif.Props.NoDigests
import Verif.Props.Object
import Verif.Props.ObjectState
import Verif.Props.ObjectTool
import Verif.Props.ObjectToolDemo
import Verif.Props.ObjectValidation
import Verif.Props.PriorOrder
import Verif.Props.Reading
import Verif.Props.Recipe
import Verif.Props.Report
import Verif.Props.RollBack
import Verif.Props.RollBackDemo
import Verif.Props.RollBackHistory
import Verif.Props.RootReport
import Verif.Props.RootState
import Verif.Props.RootTool
import Verif.Props.RootToolDemo
import Verif.Props.RootVersion
import Verif.Props.Series
import Verif.Props.Setters
import Verif.Props.Sharing
import Verif.Props.Sidecar
import Verif.Props.SidecarTool
import Verif.Props.Small
import Verif.Props.StorageAdd
import Verif.Props.StorageLog
import Verif.Props.StorageRoot
import Verif.Props.StorageValidate
import Verif.Props.StoreHistory
import Verif.Props.StoreObjects
import Verif.Props.Thrifty
import Verif.Props.TreeView
import Verif.Props.UnknownKeys
import Verif.Props.Update
import Verif.Props.UpdateSucceeds
import Verif.Props.UriPaths
import Verif.Props.ValidExtract
import Verif.Props.ValidExtractDemo
import Verif.Props.Verdict
import Verif.Props.VersionDir
import Verif.Props.W3CDatetime
