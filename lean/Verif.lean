import Verif.Aac.File
import Verif.Aac.Lemmas
import Verif.Aac.Model
import Verif.Aac.Pes
import Verif.Aac.Props
import Verif.Aac.Spec
import Verif.Addr.Lemmas
import Verif.Addr.Model
import Verif.Addr.Props
import Verif.Addr.Spec
import Verif.Amf.Model
import Verif.Amf.Props
import Verif.Amf.Spec
import Verif.Api.Model
import Verif.Api.Props
import Verif.Api.Spec
import Verif.Auth.Lemmas
import Verif.Auth.Model
import Verif.Auth.Props
import Verif.Auth.Spec
import Verif.AutoPush.Bugs
import Verif.AutoPush.Check
import Verif.AutoPush.Lemmas
import Verif.AutoPush.Model
import Verif.AutoPush.Page
import Verif.AutoPush.PageProps
import Verif.AutoPush.Props
import Verif.AutoPush.Restart
import Verif.AutoPush.Signals
import Verif.AutoPush.Spec
import Verif.Av1.Frame
import Verif.Av1.Model
import Verif.Av1.Props
import Verif.Av1.Spec
import Verif.Base.Arith
import Verif.Base.Bits
import Verif.Base.Bytes
import Verif.Base.Strings
import Verif.Bit.Model
import Verif.Bit.Props
import Verif.BitStream.Lemmas
import Verif.BitStream.Model
import Verif.BitStream.Props
import Verif.Choose.Lemmas
import Verif.Choose.Model
import Verif.Choose.Props
import Verif.Choose.Spec
import Verif.Conn.Hist
import Verif.Conn.Inv
import Verif.Conn.Lemmas
import Verif.Conn.Model
import Verif.Conn.Props
import Verif.Conn.Spec
import Verif.Crc.Lemmas
import Verif.Crc.Model
import Verif.Crc.Props
import Verif.Crc.Register
import Verif.Crc.Spec
import Verif.Dtsc.Header
import Verif.Dtsc.HeaderLen
import Verif.Dtsc.HeaderLoad
import Verif.Dtsc.HeaderProps
import Verif.Dtsc.HeaderSpec
import Verif.Dtsc.HeaderTrack
import Verif.Dtsc.HeaderVal
import Verif.Dtsc.Packet
import Verif.Dtsc.PacketLemmas
import Verif.Dtsc.PacketProps
import Verif.Dtsc.PacketSpec
import Verif.Dtsc.ScanLemmas
import Verif.Dtsc.ScanProps
import Verif.Dtsc.ScanSpec
import Verif.Ebml.Lemmas
import Verif.Ebml.Model
import Verif.Ebml.Props
import Verif.Enc.Lemmas
import Verif.Enc.Model
import Verif.Enc.Props
import Verif.Enc.Spec
import Verif.Flac.Lemmas
import Verif.Flac.Model
import Verif.Flac.Props
import Verif.Flac.Spec
import Verif.Flv.Lemmas
import Verif.Flv.Model
import Verif.Flv.Old
import Verif.Flv.Props
import Verif.Flv.Read
import Verif.Flv.Safe
import Verif.Flv.Spec
import Verif.Flv.Stream
import Verif.Flv.StreamSpec
import Verif.Fmp4.Lemmas
import Verif.Fmp4.Locate
import Verif.Fmp4.Model
import Verif.Fmp4.Part
import Verif.Fmp4.Props
import Verif.Fmp4.Runs
import Verif.Fmp4.Spec
import Verif.H264In.Lemmas
import Verif.H264In.Model
import Verif.H264In.Props
import Verif.H264In.Spec
import Verif.H264Out.Conf
import Verif.H264Out.Loop
import Verif.H264Out.Model
import Verif.H264Out.Props
import Verif.H264Out.Spec
import Verif.Hls.Cmaf
import Verif.Hls.CmafLemmas
import Verif.Hls.CmafProps
import Verif.Hls.Fetch
import Verif.Hls.Hide
import Verif.Hls.Lemmas
import Verif.Hls.Lines
import Verif.Hls.LiveList
import Verif.Hls.Model
import Verif.Hls.Props
import Verif.Hls.Spec
import Verif.HlsIn.Hist
import Verif.HlsIn.Lemmas
import Verif.HlsIn.Load
import Verif.HlsIn.Model
import Verif.HlsIn.Props
import Verif.HlsIn.Spec
import Verif.Http.Cut
import Verif.Http.Foreign
import Verif.Http.Lemmas
import Verif.Http.Model
import Verif.Http.Props
import Verif.Http.Spec
import Verif.Index.Evict
import Verif.Index.Groups
import Verif.Index.Lemmas
import Verif.Index.Model
import Verif.Index.Props
import Verif.Index.Seek
import Verif.Index.Spec
import Verif.Index.Step
import Verif.Index.StepKey
import Verif.Index.Tables
import Verif.Ingest.Model
import Verif.Ingest.Props
import Verif.Ingest.Spec
import Verif.Ip.Model
import Verif.Ip.Props
import Verif.Json.Dtmi
import Verif.Json.DtmiLemmas
import Verif.Json.DtmiProps
import Verif.Json.DtmiSpec
import Verif.Json.ForeignProps
import Verif.Json.ForeignSpec
import Verif.Json.Model
import Verif.Json.ParseLemmas
import Verif.Json.Props
import Verif.Json.Spec
import Verif.Json.StrLemmas
import Verif.Json.TextLemmas
import Verif.Json.ValSpec
import Verif.JsonLine.Model
import Verif.JsonLine.Props
import Verif.Jwt.Lemmas
import Verif.Jwt.Model
import Verif.Jwt.Props
import Verif.Jwt.Spec
import Verif.Live.Group
import Verif.Live.Lemmas
import Verif.Live.Model
import Verif.Live.Props
import Verif.Live.Run
import Verif.Live.Spec
import Verif.Live.Step
import Verif.Load.Hist
import Verif.Load.Ingest
import Verif.Load.Model
import Verif.Load.Props
import Verif.Load.Spec
import Verif.Mp3.Model
import Verif.Mp3.Props
import Verif.Mp3.Spec
import Verif.Mp4.Lemmas
import Verif.Mp4.Model
import Verif.Mp4.Order
import Verif.Mp4.Props
import Verif.Mp4.Spec
import Verif.Mp4.Write
import Verif.Nal.Model
import Verif.Nal.Props
import Verif.Ogg.Hist
import Verif.Ogg.Lemmas
import Verif.Ogg.Model
import Verif.Ogg.Props
import Verif.Ogg.Read
import Verif.Ogg.Send
import Verif.Ogg.Spec
import Verif.Page.Lemmas
import Verif.Page.Model
import Verif.Page.Props
import Verif.Page.Spec
import Verif.Play.Fair
import Verif.Play.Grow
import Verif.Play.Lemmas
import Verif.Play.Lookup
import Verif.Play.Model
import Verif.Play.Order
import Verif.Play.Props
import Verif.Play.Run
import Verif.Play.Seek
import Verif.Play.Spec
import Verif.Play.Step
import Verif.Pls.Lemmas
import Verif.Pls.Model
import Verif.Pls.Props
import Verif.Pls.Spec
import Verif.Prog.Got
import Verif.Prog.Model
import Verif.Prog.Order
import Verif.Prog.Props
import Verif.Prog.Serve
import Verif.Prog.Spec
import Verif.Prog.Tab
import Verif.Prog.Visit
import Verif.Psi.Lemmas
import Verif.Psi.Make
import Verif.Psi.Model
import Verif.Psi.Parse
import Verif.Psi.Props
import Verif.Psi.Read
import Verif.Psi.Spec
import Verif.Push.Model
import Verif.Push.Props
import Verif.Push.Spec
import Verif.Query.Model
import Verif.Query.Props
import Verif.Range.Model
import Verif.Range.Props
import Verif.Range.Spec
import Verif.Rax.Model
import Verif.Rax.Props
import Verif.Rtmp.Lemmas
import Verif.Rtmp.Model
import Verif.Rtmp.Props
import Verif.Rtmp.Spec
import Verif.Rtp.Clock
import Verif.Rtp.FecModel
import Verif.Rtp.FecProps
import Verif.Rtp.FecSpec
import Verif.Rtp.Frames
import Verif.Rtp.Header
import Verif.Rtp.Loop
import Verif.Rtp.Loss
import Verif.Rtp.Model
import Verif.Rtp.Send
import Verif.Rtp.Sorter
import Verif.Rtp.SorterLemmas
import Verif.Rtp.SorterProps
import Verif.Rtp.Spec
import Verif.Select.Codes
import Verif.Select.Lemmas
import Verif.Select.Model
import Verif.Select.Props
import Verif.Select.Spec
import Verif.Servers.Model
import Verif.Servers.Props
import Verif.Servers.Spec
import Verif.Sess.Model
import Verif.Sess.Pass
import Verif.Sess.Props
import Verif.Shm.Claim
import Verif.Shm.ClaimProps
import Verif.Shm.Comms
import Verif.Shm.CommsInv
import Verif.Shm.CommsProps
import Verif.SockBuf.Model
import Verif.SockBuf.Props
import Verif.Stbl.Clock
import Verif.Stbl.Model
import Verif.Stbl.Pos
import Verif.Stbl.Props
import Verif.Stbl.Spec
import Verif.Stbl.Time
import Verif.Streams.Change
import Verif.Streams.Inv
import Verif.Streams.Lemmas
import Verif.Streams.Model
import Verif.Streams.Props
import Verif.Streams.Spec
import Verif.Stun.Lemmas
import Verif.Stun.Model
import Verif.Stun.Props
import Verif.Stun.Spec
import Verif.Subs.Lemmas
import Verif.Subs.Model
import Verif.Subs.Props
import Verif.Subs.Spec
import Verif.Text.Model
import Verif.Text.Props
import Verif.Totals.Bugs
import Verif.Totals.Lemmas
import Verif.Totals.Model
import Verif.Totals.Props
import Verif.Totals.Spec
import Verif.Totals.Streams
import Verif.Trig.Model
import Verif.Trig.Props
import Verif.Trig.Spec
import Verif.Ts.Demux
import Verif.Ts.Lemmas
import Verif.Ts.Model
import Verif.Ts.Mux
import Verif.Ts.Pes
import Verif.Ts.Props
import Verif.Ts.Spec
import Verif.Ulp.Lemmas
import Verif.Ulp.Model
import Verif.Ulp.Props
import Verif.Ulp.Recover
import Verif.Ulp.Spec
import Verif.Url.Model
import Verif.Url.Props
import Verif.Url.Roundtrip
import Verif.Vars.Bugs
import Verif.Vars.Due
import Verif.Vars.Lemmas
import Verif.Vars.Model
import Verif.Vars.Props
import Verif.Vars.Sched
import Verif.Vars.Spec
import Verif.Vars.Values
import Verif.Vod.Ahead
import Verif.Vod.Hist
import Verif.Vod.Lemmas
import Verif.Vod.Load
import Verif.Vod.Model
import Verif.Vod.Order
import Verif.Vod.Props
import Verif.Vod.Read
import Verif.Vod.Spec
import Verif.Wav.Model
import Verif.Wav.Props
import Verif.Wav.Spec
import Verif.Websocket.Model
import Verif.Websocket.Props
import Verif.Websocket.Spec
