import Verif.Basic
import Verif.Props.Access
import Verif.Props.AvFrame
import Verif.Props.Base64
import Verif.Props.Buffer
import Verif.Props.Buffers
import Verif.Props.Callbacks
import Verif.Props.Calm
import Verif.Props.Canvas
import Verif.Props.Changes
import Verif.Props.ClipText
import Verif.Props.Clipboard
import Verif.Props.Creds
import Verif.Props.Cursor
import Verif.Props.Damage
import Verif.Props.DamageClients
import Verif.Props.Decode
import Verif.Props.Device
import Verif.Props.Display
import Verif.Props.Displays
import Verif.Props.Echo
import Verif.Props.EncWork
import Verif.Props.Exclusive
import Verif.Props.Extensions
import Verif.Props.Fb
import Verif.Props.Fences
import Verif.Props.Flow
import Verif.Props.Formats
import Verif.Props.Frames
import Verif.Props.H264
import Verif.Props.Honest
import Verif.Props.Http
import Verif.Props.Isolation
import Verif.Props.Keyboard
import Verif.Props.Keys
import Verif.Props.Labels
import Verif.Props.Layout
import Verif.Props.Leds
import Verif.Props.Level
import Verif.Props.Lifetime
import Verif.Props.Listen
import Verif.Props.Log
import Verif.Props.Make
import Verif.Props.Messages
import Verif.Props.Names
import Verif.Props.Ntp
import Verif.Props.Owed
import Verif.Props.Pem
import Verif.Props.Pixels
import Verif.Props.Pointers
import Verif.Props.Rating
import Verif.Props.Raw
import Verif.Props.Refuse
import Verif.Props.Repaint
import Verif.Props.RsaStream
import Verif.Props.Screen
import Verif.Props.Secrecy
import Verif.Props.Segmentation
import Verif.Props.Shutdown
import Verif.Props.Sizes
import Verif.Props.Streams
import Verif.Props.Talk
import Verif.Props.TalkOver
import Verif.Props.Tcp
import Verif.Props.Tight
import Verif.Props.Times
import Verif.Props.Tls
import Verif.Props.Turned
import Verif.Props.Updates
import Verif.Props.Userdata
import Verif.Props.V4l2
import Verif.Props.Vec
import Verif.Props.Wire
import Verif.Props.WireEnc
import Verif.Props.Ws
import Verif.Props.WsStream
import Verif.Props.Zrle
import Verif.Props.ZrleFrame
