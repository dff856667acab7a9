import Verif.Props.TlvProps
import Verif.Props.CoreProps
import Verif.Props.PacketProps
import Verif.Props.CrcProps
import Verif.Props.FlicProps
import Verif.Props.ValidateProps
import Verif.Props.CryptoProps
import Verif.Props.OptimizerProps
import Verif.Props.ParseProps
import Verif.Props.SchemaProps
import Verif.Props.BuilderProps
import Verif.Props.StoreProps
import Verif.Props.TreeProps
import Verif.Props.FileProps
import Verif.Props.SizeProps
import Verif.Props.TraversalProps
import Verif.Props.EndToEndProps
import Verif.Props.UriProps
import Verif.Props.DirectoryProps
import Verif.Props.ContainerProps
import Verif.Props.WasteProps
import Verif.Props.RoundProps
import Verif.Props.ContextProps
import Verif.Props.AeadProps
import Verif.Props.GraphProps
import Verif.Props.FactoryProps
import Verif.Props.DecryptorProps
import Verif.Props.DisplayProps
import Verif.Props.ExceptionProps
import Verif.Props.ReaderProps
import Verif.Props.HexProps
import Verif.Props.CliProps
import Verif.Props.MissingProps
import Verif.Props.EqualityProps
import Verif.Props.IntegrityProps
import Verif.Props.LayoutProps
import Verif.Props.FramesProps
import Verif.Props.AmplifyProps
import Verif.Props.PrintProps
import Verif.Props.IteratorProps
import Verif.Props.FullTraversalProps
import Verif.Props.MalleableProps
import Verif.Props.NetworkProps
import Verif.Props.CountProps
import Verif.Props.SharedProps
import Verif.Props.AgainProps
import Verif.Props.ProgramProps
import Verif.Props.RunProps
import Verif.Props.RepublishProps
import Verif.Props.CounterProps
import Verif.Props.CostProps
import Verif.Props.SecrecyProps
import Verif.Props.ShapeProps
import Verif.Props.TopProps
import Verif.Props.AccessProps
import Verif.Props.KeyNumberProps
import Verif.Props.WatchedProps
import Verif.Props.PictureProps
import Verif.Props.UntrustedProps
import Verif.Props.TamperProps
import Verif.Props.StorageProps
import Verif.Props.UnusedProps
import Verif.Props.WordProps
import Verif.Props.ClockProps
import Verif.Props.DepthProps
import Verif.Props.VolumeProps
import Verif.Props.PublishProps
import Verif.Props.RoomProps
import Verif.Props.LengthProps
import Verif.Props.RootProps
import Verif.Props.LargerProps
import Verif.Props.SealedProps
import Verif.Props.RemainsProps
