import Verif.Base64.Props
import Verif.Path.Props
import Verif.Path.Failed
import Verif.Path.AllocProps
import Verif.Path.ObjectsProps
import Verif.Tracker.Props
import Verif.Tracker.AllocProps
import Verif.BinaryRW.Props
import Verif.BinaryRW.AllocProps
import Verif.BinaryRW.MemProps
import Verif.Enums.Edge
import Verif.Enums.SetRange
import Verif.Enums.CastRange
import Verif.Enums.KindOf
import Verif.Enums.ShiftLeft
import Verif.Hash.Props
import Verif.Text.Props
import Verif.Text.ObjectsProps
import Verif.Zip.Props
import Verif.Zip.Borrow
import Verif.ExcInfo.Props
import Verif.ExcInfo.Shared
import Verif.ExcInfo.ThrowProps
import Verif.ExcInfo.OwnerProps
import Verif.ExcInfo.Threads
import Verif.ExcInfo.Parallel
import Verif.ExcInfo.Finish
import Verif.FileView.Props
import Verif.Defer.Props
import Verif.Ctti.Props
import Verif.Signal.Props
import Verif.Resource.More
import Verif.Resource.AtPath
import Verif.Resource.RecProps
import Verif.Resource.OneKey
import Verif.Resource.AllocProps
import Verif.Serial.Props
import Verif.Serial.Props2
import Verif.Serial.Props3
import Verif.Serial.Props4
import Verif.Serial.Props5
import Verif.Serial.TrailProps
import Verif.Serial.DumpRunProps
import Verif.Serial.NameProps
import Verif.Serial.RecProps
import Verif.Rest.Props4
import Verif.Targets.Props
import Verif.Lifetime.Props
import Verif.Custom.Props
import Verif.YamlNode.Props
import Verif.JsonText.Props
import Verif.Floating.Props
import Verif.Handles.Props
import Verif.Handles.BlockProps
import Verif.Macros.Struct
import Verif.Args.Props
import Verif.Args.Count
import Verif.Types.Props
import Verif.Overload.MatchProps
import Verif.Overload.LibraryProps
import Verif.Bounds.Fields
import Verif.Bounds.Decode
import Verif.Races.Props
import Verif.Locks.Props
import Verif.Locks.Nested
import Verif.Races.Empty
import Verif.Races.Mutex
import Verif.Races.Tidy
import Verif.Conform.Small
import Verif.Conform.Binary
import Verif.Conform.Typedefs
import Verif.Conform.Serial
import Verif.Conform.Serial2
import Verif.Conform.Attributes
import Verif.Conform.Resource
import Verif.Conform.Verbs
import Verif.Conform.Signal
import Verif.Conform.Compile
