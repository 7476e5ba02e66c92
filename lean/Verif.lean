import Verif.Buffer.Props
import Verif.Input.Props
import Verif.Flush.Props
import Verif.Sched.Props
import Verif.Sched.AheadProps
import Verif.Drop.Props
import Verif.Graph.Props
import Verif.BufNet.Props
import Verif.Promise.Props
import Verif.Promise.RaceProps
import Verif.Delivery.Props
import Verif.Continuous.Props
import Verif.Task.Props
import Verif.Reentrant.Props
import Verif.Collect.Props
import Verif.Scope.Props
import Verif.Fork.Props
import Verif.Split.Props
import Verif.Streams.Props
import Verif.Keys.Props
import Verif.Inject.Props
import Verif.Series.Props
import Verif.Trim.Props
import Verif.Diagram.Props
import Verif.Diagram.TypeProps
import Verif.Diagram.NameProps
import Verif.Diagram.FlatProps
import Verif.Diagram.Witness
import Verif.Diagram.ThroughProps
import Verif.Flow.Props
import Verif.Flow.Witness
import Verif.Wire.Props
import Verif.Views.Props
import Verif.Refs.Props
import Verif.Gone.Props
import Verif.Gone.DispatchProps
import Verif.Convert.Props
import Verif.Chain.Props
import Verif.Register.Props
import Verif.Trace.Props
import Verif.Residue.Props
import Verif.Diagram.HaltProps
import Verif.Zenoh.PublishProps
import Verif.Zenoh.ConfigProps
import Verif.Zenoh.NodesProps
import Verif.Grpc.Props
import Verif.Scope.AnswerProps
import Verif.File.Props
import Verif.Many.Witness
import Verif.Server.Witness
import Verif.Editor.Witness
import Verif.Editor.DrawWitness
import Verif.Editor.EditWitness
import Verif.Values.Witness
import Verif.Values.EndWitness
import Verif.Poll.Props
import Verif.Editor.TemplateEdit
import Verif.Editor.ReachProps
import Verif.Editor.FieldProps
import Verif.Editor.ShelfProps
import Verif.Editor.LayoutProps
import Verif.Editor.MoveProps
import Verif.Again.Props
