import Verif.Dedupe.Props
import Verif.DataLoader.Props
import Verif.Mustache.Props
import Verif.HttpUrl.Props
import Verif.HttpKey.Props
import Verif.HttpBatch.Props
import Verif.Merge.Props
import Verif.Federation.Props
import Verif.Rest.Props
import Verif.Plan.Props
import Verif.Auth.Props
import Verif.Ir.Props
import Verif.Ir.Types
import Verif.Ir.Cache
import Verif.Exec.Props
import Verif.Exec.Shape
import Verif.Exec.Guards
import Verif.Server.Props
import Verif.Server.Ident
import Verif.Server.Share
import Verif.Server.Demo
import Verif.Front.Props
import Verif.Front.Cache
import Verif.Front.Resp
import Verif.Input.Props
import Verif.Input.Accept
import Verif.Schema.Props
import Verif.Transform.Props
import Verif.Fold.Props
import Verif.Gql.Props
import Verif.Tmpl.Props
import Verif.Call.Props
import Verif.Gen.Props
import Verif.Sdl.Reading
import Verif.Npo.Reach
import Verif.Prune.Props
import Verif.UnionIn.Props
import Verif.Subgraph.Surface
import Verif.Refine.Props
import Verif.Refine.Cases
import Verif.Refine.Improve
import Verif.Added.Props
import Verif.Added.Cases
import Verif.Proto.Props
import Verif.Proto.Cases
import Verif.Hook.Props
import Verif.Hook.Cases
import Verif.Sample.Props
import Verif.Sample.Types
import Verif.Sample.Cases
import Verif.Load.Props
import Verif.Load.Links
import Verif.Load.Files
import Verif.Load.Cases
import Verif.Grpc.Names
import Verif.Grpc.Cases
import Verif.Introspect.Cases
import Verif.Doc.Cases
import Verif.Doc.Config
import Verif.Scalar.Cases
import Verif.Loaders.Cases
import Verif.Service.Cases
import Verif.Edge.Cases
import Verif.Report.Cases
import Verif.Settings.Cases
import Verif.GenCmd.Cases
import Verif.Cli.Cases
import Verif.Reflect.Cases
import Verif.Cmd.Cases
