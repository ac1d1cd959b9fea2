import Verif.Props.RoundTrip
import Verif.Props.Deser
import Verif.Props.Fields
import Verif.Props.Streams
import Verif.Props.Framing
import Verif.Props.Framed
import Verif.Props.Bijection
import Verif.Props.HierDict
import Verif.Props.Version
import Verif.Props.Registry
import Verif.Props.Address
import Verif.Props.Switch
import Verif.Props.SwNet
import Verif.Props.Fragment
import Verif.Props.Length
import Verif.Props.Vnic
import Verif.Props.VnicData
import Verif.Props.VnicOpen
import Verif.Props.VnicClient
import Verif.Props.Callback
import Verif.Props.Promiscuous
import Verif.Props.Observe
import Verif.Props.Stack
import Verif.Props.Wan
import Verif.Props.Timer
import Verif.Props.Lines
import Verif.Props.Unreliable
import Verif.Props.Cipher
import Verif.Props.Routes
import Verif.Props.Device
import Verif.Props.Spmp
import Verif.Model.WanNet
import Verif.Spec.WanNet
import Verif.Lemmas.WanNet
import Verif.Lemmas.WanLinks
import Verif.Lemmas.WanRun
import Verif.Lemmas.WanSend
import Verif.Props.WanNet
import Verif.Model.SpmpFramed
import Verif.Spec.SpmpFramed
import Verif.Props.SpmpFramed
import Verif.Model.LinkNet
import Verif.Spec.LinkNet
import Verif.Lemmas.LinkNet
import Verif.Lemmas.LinkRoute
import Verif.Props.LinkNet
import Verif.Props.LinkNetEx
import Verif.Model.Pnms
import Verif.Spec.Pnms
import Verif.Lemmas.Pnms
import Verif.Lemmas.PnmsArgs
import Verif.Lemmas.PnmsStep
import Verif.Lemmas.PnmsConfig
import Verif.Props.Pnms
import Verif.Lemmas.VnicFlow
import Verif.Model.E2E
import Verif.Spec.E2E
import Verif.Lemmas.E2E
import Verif.Lemmas.E2EKeys
import Verif.Props.E2E
import Verif.Props.E2EEx
import Verif.Model.Connector
import Verif.Spec.Connector
import Verif.Lemmas.Connector
import Verif.Lemmas.ConnectorInv
import Verif.Lemmas.ConnectorWait
import Verif.Props.Connector
import Verif.Props.ConnectorEnd
import Verif.Props.ConnectorClose
import Verif.Model.Host
import Verif.Spec.Host
import Verif.Lemmas.VnicOrigin
import Verif.Lemmas.ConnectorOrigin
import Verif.Lemmas.Host
import Verif.Props.Host
import Verif.Lemmas.ConnectorServe
import Verif.Props.HostServe
import Verif.Model.Apps
import Verif.Spec.Apps
import Verif.Lemmas.Apps
import Verif.Lemmas.AppsFlow
import Verif.Props.Apps
import Verif.Props.AppsCan
import Verif.Props.AppsEx
import Verif.Model.Shlex
import Verif.Spec.Shlex
import Verif.Lemmas.Shlex
import Verif.Props.Shlex
import Verif.Model.Shell
import Verif.Spec.Shell
import Verif.Lemmas.Shell
import Verif.Lemmas.ShellInv
import Verif.Lemmas.ShellBatch
import Verif.Props.Shell
import Verif.Props.ShellBatch
import Verif.Model.Launch
import Verif.Spec.Launch
import Verif.Lemmas.Launch
import Verif.Props.Launch
import Verif.Props.LaunchFile
import Verif.Model.Logging
import Verif.Spec.Logging
import Verif.Lemmas.Logging
import Verif.Props.Logging
import Verif.Model.Service
import Verif.Spec.Service
import Verif.Lemmas.Service
import Verif.Props.Service
import Verif.Model.Config
import Verif.Spec.Config
import Verif.Props.Config
import Verif.Props.ConfigFile
import Verif.Model.WanApi
import Verif.Spec.WanApi
import Verif.Lemmas.WanApi
import Verif.Props.WanApi
import Verif.Props.WanReply
import Verif.Props.WanReplyEx
import Verif.Model.SwitchApi
import Verif.Spec.SwitchApi
import Verif.Lemmas.SwitchApi
import Verif.Lemmas.SwitchLayers
import Verif.Props.SwitchApi
import Verif.Props.SwitchReply
import Verif.Model.Choose
import Verif.Spec.Choose
import Verif.Props.Choose
import Verif.Props.ChooseEx
import Verif.Model.Power
import Verif.Spec.Power
import Verif.Lemmas.Power
import Verif.Lemmas.PowerLoad
import Verif.Lemmas.PowerRun
import Verif.Props.Power
import Verif.Props.PowerEx
import Verif.Model.Mock
import Verif.Spec.Mock
import Verif.Lemmas.MockLoop
import Verif.Lemmas.MockPair
import Verif.Lemmas.MockClose
import Verif.Lemmas.MockStream
import Verif.Props.Mock
import Verif.Model.VnicApi
import Verif.Spec.VnicApi
import Verif.Lemmas.VnicApi
import Verif.Props.VnicApi
import Verif.Model.SpmpHidden
import Verif.Spec.SpmpHidden
import Verif.Props.SpmpHidden
import Verif.Props.VnicReply
import Verif.Model.StackRun
import Verif.Spec.StackRun
import Verif.Lemmas.StackRun
import Verif.Lemmas.StackCalm
import Verif.Props.StackRun
import Verif.Props.StackRunEx
import Verif.Props.StackPacket
import Verif.Model.Float
import Verif.Spec.Float
import Verif.Lemmas.Float
import Verif.Lemmas.FloatCodec
import Verif.Props.Float
import Verif.Spec.Received
import Verif.Lemmas.Received
import Verif.Props.Received
import Verif.Model.Extra
import Verif.Spec.Extra
import Verif.Lemmas.Extra
import Verif.Props.Extra
import Verif.Model.Alias
import Verif.Spec.Alias
import Verif.Lemmas.Alias
import Verif.Props.Alias
import Verif.Model.Cli
import Verif.Spec.Cli
import Verif.Lemmas.Cli
import Verif.Props.Cli
import Verif.Model.Equal
import Verif.Spec.Equal
import Verif.Lemmas.Equal
import Verif.Props.Equal
import Verif.Spec.Entries
import Verif.Lemmas.Entries
import Verif.Props.Entries
import Verif.Model.Query
import Verif.Spec.Query
import Verif.Lemmas.Query
import Verif.Props.Query
import Verif.Model.Complete
import Verif.Spec.Complete
import Verif.Lemmas.Complete
import Verif.Props.Complete
import Verif.Model.Stdio
import Verif.Spec.Stdio
import Verif.Lemmas.Stdio
import Verif.Props.Stdio
import Verif.Model.AskNet
import Verif.Spec.AskNet
import Verif.Lemmas.AskNet
import Verif.Props.AskNet
import Verif.Model.Dump
import Verif.Spec.Dump
import Verif.Props.Dump
import Verif.Model.Control
import Verif.Spec.Control
import Verif.Lemmas.Control
import Verif.Lemmas.ControlPkt
import Verif.Props.Control
import Verif.Model.Session
import Verif.Spec.Session
import Verif.Lemmas.SessionVnic
import Verif.Lemmas.Session
import Verif.Props.Session
import Verif.Model.Deferred
import Verif.Spec.Deferred
import Verif.Props.Deferred
import Verif.Model.Section
import Verif.Spec.Section
import Verif.Props.Section
import Verif.Model.Dispatch
import Verif.Spec.Dispatch
import Verif.Props.Dispatch
import Verif.Model.Bare
import Verif.Spec.Bare
import Verif.Lemmas.Bare
import Verif.Props.Bare
import Verif.Model.Seekable
import Verif.Spec.Seekable
import Verif.Props.Seekable
import Verif.Model.Sockets
import Verif.Props.Sockets
import Verif.Model.Proc
import Verif.Spec.Proc
import Verif.Props.Proc
import Verif.Model.Spin
import Verif.Props.Spin
import Verif.Model.Loader
import Verif.Props.Loader
import Verif.Model.Delegate
import Verif.Props.Delegate
import Verif.Model.Constant
import Verif.Props.Constant
import Verif.Model.Cert
import Verif.Spec.Cert
import Verif.Props.Cert
import Verif.Model.Format
import Verif.Spec.Format
import Verif.Props.Format
import Verif.Model.RawLines
import Verif.Spec.RawLines
import Verif.Props.RawLines
import Verif.Model.LevelNet
import Verif.Spec.LevelNet
import Verif.Props.LevelNet
import Verif.Props.AddressPrefix
import Verif.Model.Usage
import Verif.Spec.Usage
import Verif.Lemmas.Usage
import Verif.Props.Usage
import Verif.Model.LogHandlers
import Verif.Spec.LogHandlers
import Verif.Lemmas.LogHandlers
import Verif.Props.LogHandlers
import Verif.Model.Attrs
import Verif.Spec.Attrs
import Verif.Lemmas.Attrs
import Verif.Props.Attrs
import Verif.Props.SpmpRaise
