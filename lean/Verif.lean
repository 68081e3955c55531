import Verif.Props.AllTypes
import Verif.Props.AppendLens
import Verif.Props.AppendOnly
import Verif.Props.AppendOrder
import Verif.Props.Assign
import Verif.Props.AssignExact
import Verif.Props.AssignText
import Verif.Props.AssignTextExact
import Verif.Props.Bind
import Verif.Props.BindArg
import Verif.Props.BindReport
import Verif.Props.BindText
import Verif.Props.CliData
import Verif.Props.CliExact
import Verif.Props.CliGen
import Verif.Props.CliLoad
import Verif.Props.Commands
import Verif.Props.Comment
import Verif.Props.CommentExact
import Verif.Props.ConfigExact
import Verif.Props.Crd
import Verif.Props.CueArgs
import Verif.Props.Declare
import Verif.Props.ErrText
import Verif.Props.ErrTextExact
import Verif.Props.Exact
import Verif.Props.ExactIndex
import Verif.Props.Exemplars
import Verif.Props.ExemplarsAll
import Verif.Props.Fix
import Verif.Props.FixExact
import Verif.Props.FixFile
import Verif.Props.FixFileExact
import Verif.Props.FlatIdx
import Verif.Props.GenExact
import Verif.Props.GenRace
import Verif.Props.GoBindable
import Verif.Props.GoGen
import Verif.Props.GoJson
import Verif.Props.GoJsonAgain
import Verif.Props.GoJsonExact
import Verif.Props.GoNames
import Verif.Props.GoParts
import Verif.Props.GoRepeat
import Verif.Props.GoRewrite
import Verif.Props.GoStart
import Verif.Props.GoText
import Verif.Props.GoTypes
import Verif.Props.Grow
import Verif.Props.Guarantee
import Verif.Props.GuaranteeExact
import Verif.Props.Hops
import Verif.Props.Hydrate
import Verif.Props.HydrateExact
import Verif.Props.HydrateSem
import Verif.Props.Init
import Verif.Props.InitExact
import Verif.Props.InitFile
import Verif.Props.InstPtr
import Verif.Props.JSchema
import Verif.Props.JSchemaExact
import Verif.Props.LatestExact
import Verif.Props.LensErrors
import Verif.Props.LensText
import Verif.Props.LensTextTells
import Verif.Props.Load
import Verif.Props.LoadExact
import Verif.Props.Lock
import Verif.Props.LockExact
import Verif.Props.Migrate
import Verif.Props.ModRoot
import Verif.Props.Mux
import Verif.Props.MuxAgain
import Verif.Props.MuxExact
import Verif.Props.MuxGrow
import Verif.Props.Navigation
import Verif.Props.NeighbourInst
import Verif.Props.NestedTypes
import Verif.Props.OApi
import Verif.Props.OApiExact
import Verif.Props.OGen
import Verif.Props.OGenDefs
import Verif.Props.OGenFile
import Verif.Props.OGenOrder
import Verif.Props.OMerge
import Verif.Props.OSort
import Verif.Props.Options
import Verif.Props.OwnUnknown
import Verif.Props.Path
import Verif.Props.PathExact
import Verif.Props.PlainTypes
import Verif.Props.PrintfExact
import Verif.Props.Rewrite
import Verif.Props.RoundTrip
import Verif.Props.Runtime
import Verif.Props.Split
import Verif.Props.Steps
import Verif.Props.SubpathText
import Verif.Props.Surface
import Verif.Props.SurfaceExact
import Verif.Props.TranslateCue
import Verif.Props.TranslateGo
import Verif.Props.TsGen
import Verif.Props.Typed
import Verif.Props.TypedExact
import Verif.Props.Validate
import Verif.Props.ValidateExact
import Verif.Props.Version
import Verif.Props.VersionLists
import Verif.Axioms
