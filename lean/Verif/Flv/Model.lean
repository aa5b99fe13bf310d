import Verif.Base.Bytes

/-!
# Model of FLV tags and of the media messages of RTMP

`/repo/lib/flv_tag.cpp` (all of it but the printing of tags and the reading of metadata tags), the media part of `OutRTMP::sendNext`
(`/repo/src/output/output_rtmp.cpp` 963-1117) and the reception of media in `OutRTMP::parseChunk` (2425-2527).

Simplifications: a tag is the list of its bytes, and reading outside of it gives `none`; memory for tags can always be had. Names of
codecs are strings, as in the code. `char` is unsigned (CMakeLists/meson: `-funsigned-char`).
-/
namespace Verif.Flv

/-- Three bytes of a length or offset (flv_tag.cpp 463-465, 640-642). -/
def be24 (n : Nat) : Bytes := [UInt8.ofNat (n / 65536), UInt8.ofNat (n / 256), UInt8.ofNat n]

/-- flv_tag.cpp 474-479: the bytes of the time, the highest one last. -/
def timeBytes (t : Nat) : Bytes := [UInt8.ofNat (t / 65536), UInt8.ofNat (t / 256), UInt8.ofNat t, UInt8.ofNat (t / 16777216)]

/-- flv_tag.cpp 652-662: the length of the tag behind it. -/
def be32 (n : Nat) : Bytes := [UInt8.ofNat (n / 16777216), UInt8.ofNat (n / 65536), UInt8.ofNat (n / 256), UInt8.ofNat n]

/-- flv_tag.cpp 634-649, 905-913 and 916-930: a tag of the given type with this content; `sid` are the bytes 8 to 10, which `ChunkLoader`
does not set and all others set to zero. -/
def tagOf (ty time : Nat) (sid : Bytes) (body : Bytes) : Bytes :=
  UInt8.ofNat ty :: (be24 body.length ++ timeBytes time ++ sid ++ body ++ be32 (body.length + 11))

/-! ## Reading a tag -/

/-- flv_tag.cpp 187-199: `skipModEx`. -/
def skipModEx (d : Bytes) (o : Nat) : Option Nat :=
  match h : d[o]? with
  | none => none
  | some b =>
    if b.toNat % 16 = 7 then
      match d[o + 1]? with
      | none => none
      | some s =>
        if s.toNat + 1 = 256 then
          match d[o + 2]?, d[o + 3]? with
          | some hi, some lo => skipModEx d (o + 3 + (hi.toNat * 256 + (lo.toNat + 1)) + 1)
          | _, _ => none
        else skipModEx d (o + 1 + (s.toNat + 1) + 1)
    else some o
termination_by d.length - o
decreasing_by
  all_goals
    have := (List.getElem?_eq_some_iff.mp h).1
    omega

/-- `std::string(data + o, 4)`. -/
def four (d : Bytes) (o : Nat) : Option Bytes := if o + 4 ≤ d.length then some ((d.drop o).take 4) else none

/-- "av01". -/
def ccAV1 : Bytes := [97, 118, 48, 49]
/-- "avc1". -/
def ccAVC : Bytes := [97, 118, 99, 49]
/-- "hvc1". -/
def ccHEVC : Bytes := [104, 118, 99, 49]
/-- "vp08". -/
def ccVP8 : Bytes := [118, 112, 48, 56]
/-- "vp09". -/
def ccVP9 : Bytes := [118, 112, 48, 57]
/-- "ac-3". -/
def ccAC3 : Bytes := [97, 99, 45, 51]
/-- "ec-3". -/
def ccEAC3 : Bytes := [101, 99, 45, 51]
/-- "Opus". -/
def ccOpus : Bytes := [79, 112, 117, 115]
/-- ".mp3". -/
def ccMP3 : Bytes := [46, 109, 112, 51]
/-- "fLaC". -/
def ccFLAC : Bytes := [102, 76, 97, 67]
/-- "mp4a". -/
def ccAAC : Bytes := [109, 112, 52, 97]

/-- flv_tag.cpp 96-151: `needsInitData`. -/
def needsInit (d : Bytes) : Option Bool := do
  let ty ← d[0]?
  let b ← d[11]?
  if ty = 0x09 then
    if b.toNat ≥ 128 then
      let o ← skipModEx d 11
      let p ← d[o]?
      if p.toNat % 16 = 6 then
        let q ← d[o + 1]?
        if q.toNat / 16 = 2 then pure false
        else if q.toNat % 16 = 4 then pure false else pure true
      else if p.toNat % 16 = 4 then pure false else pure true
    else pure (decide (b.toNat % 16 = 2) || decide (b.toNat % 16 = 7))
  else if ty = 0x08 then
    if b.toNat / 16 = 10 then pure true
    else if b.toNat / 16 = 9 then
      let o ← skipModEx d 11
      let p ← d[o]?
      if p.toNat % 16 = 5 then
        let q ← d[o + 1]?
        if q.toNat / 16 = 2 then pure false
        else
          let cc ← four d (o + 2)
          pure (decide (cc = ccOpus) || decide (cc = ccFLAC) || decide (cc = ccAAC))
      else
        let cc ← four d (o + 1)
        pure (decide (cc = ccOpus) || decide (cc = ccFLAC) || decide (cc = ccAAC))
    else pure false
  else pure false

/-- flv_tag.cpp 153-184: `isInitData`. -/
def isInit (d : Bytes) : Option Bool := do
  let ty ← d[0]?
  let b ← d[11]?
  if ty = 0x09 then
    if b.toNat ≥ 128 then
      let o ← skipModEx d 11
      let p ← d[o]?
      let q ← if p.toNat % 16 = 6 then d[o + 1]? else some p
      pure (decide (q.toNat % 16 = 0) || decide (q.toNat % 16 = 5))
    else if b.toNat / 16 = 5 then pure true
    else if b.toNat % 16 = 7 then
      let p ← d[12]?
      pure (decide (p = 0))
    else pure false
  else if ty = 0x08 then
    if b.toNat / 16 = 9 then
      let o ← skipModEx d 11
      let p ← d[o]?
      let q ← if p.toNat % 16 = 5 then d[o + 1]? else some p
      pure (decide (q.toNat % 16 = 0))
    else if b.toNat / 16 = 10 then
      let p ← d[12]?
      pure (decide (p = 0))
    else pure false
  else pure false

/-- flv_tag.cpp 217-222. -/
def videoName (cc : Bytes) : String :=
  if cc = ccAV1 then "AV1" else if cc = ccAVC then "H264" else if cc = ccHEVC then "HEVC"
  else if cc = ccVP8 then "VP8" else if cc = ccVP9 then "VP9" else "unknown"

/-- flv_tag.cpp 202-234: `getVideoCodec`. -/
def videoCodec (d : Bytes) : Option String := do
  let b ← d[11]?
  if b.toNat ≥ 128 then
    let o ← skipModEx d 11
    let p ← d[o]?
    if p.toNat % 16 = 6 then
      let q ← d[o + 1]?
      if q.toNat / 16 = 2 then pure "Multitrack"
      else if q.toNat % 16 = 4 then pure "Metadata"
      else
        let cc ← four d (o + 2)
        pure (videoName cc)
    else if p.toNat % 16 = 4 then pure "Metadata"
    else
      let cc ← four d (o + 1)
      pure (videoName cc)
  else
    pure <| match b.toNat % 16 with
      | 1 => "JPEG"
      | 2 => "H263"
      | 3 => "ScreenVideo1"
      | 4 => "VP6"
      | 5 => "VP6Alpha"
      | 6 => "ScreenVideo2"
      | 7 => "H264"
      | _ => "unknown"

/-- flv_tag.cpp 265-271. -/
def audioName (cc : Bytes) : String :=
  if cc = ccAC3 then "AC3" else if cc = ccEAC3 then "EAC-3" else if cc = ccOpus then "opus"
  else if cc = ccMP3 then "MP3" else if cc = ccFLAC then "FLAC" else if cc = ccAAC then "AAC" else "unknown"

/-- flv_tag.cpp 236-280: `getAudioCodec`. -/
def audioCodec (d : Bytes) : Option String := do
  let b ← d[11]?
  match b.toNat / 16 with
  | 0 => pure (if b.toNat / 2 % 2 = 1 then "PCMPE" else "PCM")
  | 1 => pure "ADPCM"
  | 2 => pure "MP3"
  | 3 => pure "PCM"
  | 4 => pure "Nellymoser"
  | 5 => pure "Nellymoser"
  | 6 => pure "Nellymoser"
  | 7 => pure "ALAW"
  | 8 => pure "ULAW"
  | 9 =>
    let o ← skipModEx d 11
    let p ← d[o]?
    if p.toNat % 16 = 5 then
      let q ← d[o + 1]?
      if q.toNat / 16 = 2 then pure "Multitrack"
      else
        let cc ← four d (o + 2)
        pure (audioName cc)
    else
      let cc ← four d (o + 1)
      pure (audioName cc)
  | 10 => pure "AAC"
  | 11 => pure "Speex"
  | 14 => pure "MP3"
  | 15 => pure "DeviceSpecific"
  | _ => pure "unknown"

/-- `((int32_t)Bit::btoh24(data + o) << 8) >> 8`. -/
def signed24 (d : Bytes) (o : Nat) : Option Int := do
  let a ← d[o]?
  let b ← d[o + 1]?
  let c ← d[o + 2]?
  let n := a.toNat * 65536 + b.toNat * 256 + c.toNat
  pure (if n < 2 ^ 23 then (n : Int) else (n : Int) - 2 ^ 24)

/-- flv_tag.cpp 436-458: `offset`. -/
def offset (d : Bytes) : Option Int := do
  let b ← d[11]?
  if b.toNat ≥ 128 then
    let o ← skipModEx d 11
    let p ← d[o]?
    if p.toNat % 16 ≠ 1 ∧ p.toNat % 16 ≠ 6 then pure 0
    else if p.toNat % 16 = 6 then
      let q ← d[o + 1]?
      if q.toNat % 16 ≠ 1 then pure 0
      else
        let cc ← four d (o + 2)
        if cc = ccAVC ∨ cc = ccHEVC then signed24 d (o + 7) else pure 0
    else
      let cc ← four d (o + 1)
      if cc = ccAVC ∨ cc = ccHEVC then signed24 d (o + 6) else pure 0
  else if b.toNat % 16 ≠ 7 then pure 0
  else signed24 d 13

/-- flv_tag.cpp 469-471: `tagTime`. -/
def tagTime (d : Bytes) : Option Nat := do
  let a ← d[4]?
  let b ← d[5]?
  let c ← d[6]?
  let e ← d[7]?
  pure (a.toNat * 65536 + b.toNat * 256 + c.toNat + e.toNat * 16777216)

/-- flv_tag.cpp 1101-1124: `getTrackID`; none also for tags of other types (`INVALID_TRACK_ID`). -/
def trackID (d : Bytes) : Option Nat := do
  let ty ← d[0]?
  let b ← d[11]?
  if ty = 0x08 then
    if b.toNat / 16 = 9 then
      let o ← skipModEx d 11
      let p ← d[o]?
      if p.toNat % 16 = 5 then
        let q ← d[o + 1]?
        if q.toNat / 16 = 2 then pure 0
        else
          let i ← d[o + 6]?
          pure (100 + i.toNat)
      else pure 2
    else pure 2
  else if ty = 0x09 then
    if b.toNat ≥ 128 then
      let o ← skipModEx d 11
      let p ← d[o]?
      if p.toNat % 16 = 6 then
        let q ← d[o + 1]?
        if q.toNat / 16 = 2 then pure 0
        else
          let i ← d[o + 6]?
          pure (400 + i.toNat)
      else pure 1
    else pure 1
  else if ty = 0x12 then pure 3
  else none

/-- flv_tag.cpp 1138-1179: `getDataOffset`. -/
def dataOffset (d : Bytes) : Option Nat := do
  let ty ← d[0]?
  let b ← d[11]?
  if ty = 0x09 ∧ b.toNat ≥ 128 then
    let o ← skipModEx d 11
    let p ← d[o]?
    match p.toNat % 16 with
    | 4 => pure (o + 5)
    | 0 => pure (o + 5)
    | 5 => pure (o + 5)
    | 2 => pure (o + 5)
    | 3 => pure (o + 5)
    | 6 =>
      let q ← d[o + 1]?
      if q.toNat / 16 = 2 then pure (o + 1)
      else if q.toNat % 16 = 1 then
        let cc ← four d (o + 2)
        if cc = ccHEVC ∨ cc = ccAVC then pure (o + 10) else pure (o + 7)
      else pure (o + 7)
    | 1 =>
      let cc ← four d (o + 1)
      if cc = ccHEVC ∨ cc = ccAVC then pure (o + 8) else pure (o + 5)
    | _ => pure (o + 1)
  else if ty = 0x08 ∧ b.toNat / 16 = 10 then pure 13
  else if ty = 0x08 ∧ b.toNat / 16 = 9 then
    let o ← skipModEx d 11
    let p ← d[o]?
    if p.toNat % 16 = 5 then
      let q ← d[o + 1]?
      if q.toNat / 16 = 2 then pure (o + 5) else pure (o + 7)
    else pure (o + 5)
  else if ty = 0x09 ∧ b.toNat % 16 = 7 then pure 16
  else pure 12

/-- flv_tag.cpp 1127-1136: `getData` with `getDataLen`. -/
def mediaData (d : Bytes) : Option Bytes := do
  let o ← dataOffset d
  if d.length < o + 4 then pure [] else pure ((d.drop o).take (d.length - 4 - o))

/-- flv_tag.cpp 1299-1308: `calcKeyframe`. -/
def isKeyframe (d : Bytes) : Option Bool := do
  let ty ← d[0]?
  if ty ≠ 0x09 then pure false
  else
    let b ← d[11]?
    pure (decide (b.toNat / 16 % 8 = 1))

/-- A frame as it goes into the buffer. -/
structure Frame where
  track : Nat
  codec : String
  time : Nat
  offset : Int
  key : Bool
  data : Bytes
  deriving DecidableEq

/-- What becomes of a message. -/
inductive Got where
  | ignored
  | init (track : Nat) (codec : String) (data : Bytes)
  | frame (f : Frame)
  deriving DecidableEq

/-- flv_tag.cpp 1227-1252: the codec of a tag. -/
def codecOf (d : Bytes) : Option String := do
  let ty ← d[0]?
  if ty = 0x08 then audioCodec d else videoCodec d

/-- output_rtmp.cpp 2425-2527 with flv_tag.cpp 1187-1279, for audio and video: empty messages are ignored, init data goes to the track
and anything else into the buffer. Simplified: the codec is the one of the message; the changes to the time (2440-2497) are in
`Verif.Ingest`; 16-bit PCM is swapped in `swap16`; the AVCC box is stored as it came. -/
def receive (d : Bytes) : Option Got := do
  let data ← mediaData d
  if data = [] then pure .ignored
  else
    let track ← trackID d
    let codec ← codecOf d
    let ni ← needsInit d
    let ii ← isInit d
    if ni ∧ ii then pure (.init track codec data)
    else
      let time ← tagTime d
      let off ← offset d
      let key ← isKeyframe d
      pure (.frame ⟨track, codec, time, off, key, data⟩)

/-! ## Writing -/

/-- `(o >> 16) & 0xFF, (o >> 8) & 0xFF, o & 0xFF` of a signed offset (flv_tag.cpp 462-466, output_rtmp.cpp 995-997 and others). -/
def off24 (o : Int) : Bytes :=
  [UInt8.ofNat ((o / 65536) % 256).toNat, UInt8.ofNat ((o / 256) % 256).toNat, UInt8.ofNat (o % 256).toNat]

/-- flv_tag.cpp 575-580, output_rtmp.cpp 1029-1032: the frame type. -/
def frameBits (key disp : Bool) : Nat := if disp then 0x30 else if key then 0x10 else 0x20

/-- flv_tag.cpp 568-574. -/
def videoNumber (codec : String) : Nat :=
  if codec = "H264" then 7 else if codec = "ScreenVideo2" then 6 else if codec = "VP6Alpha" then 5 else if codec = "VP6" then 4
  else if codec = "ScreenVideo1" then 3 else if codec = "H263" then 2 else if codec = "JPEG" then 1 else 0

/-- flv_tag.cpp 551-581: the content of a video tag of `DTSCLoader`. -/
def loadVideo (codec : String) (off : Int) (key disp : Bool) (data : Bytes) : Bytes :=
  UInt8.ofNat (videoNumber codec + frameBits key disp) :: ((if codec = "H264" then 1 :: off24 off else []) ++ data)

/-- flv_tag.cpp 597-619, output_rtmp.cpp 1059-1096: the format of audio. -/
def audioNumber (codec : String) (rate : Nat) : Nat :=
  if codec = "AAC" then 10
  else if codec = "MP3" then (if rate = 8000 then 14 else 2)
  else if codec = "ADPCM" then 1
  else if codec = "PCM" then 3
  else if codec = "Nellymoser" then (if rate = 8000 then 5 else if rate = 16000 then 4 else 6)
  else if codec = "ALAW" then 7
  else if codec = "ULAW" then 8
  else if codec = "Speex" then 11
  else 0

/-- flv_tag.cpp 620-628 and 780-789, output_rtmp.cpp 1098-1115: the rate, sample size and channels. -/
def audioBits (rate size channels : Nat) : Nat :=
  (if rate ≥ 44100 then 12 else if rate ≥ 22050 then 8 else if rate ≥ 11025 then 4 else 0) + (if size ≠ 8 then 2 else 0) +
  (if channels > 1 then 1 else 0)

/-- flv_tag.cpp 583-629: the content of an audio tag of `DTSCLoader`. -/
def loadAudio (codec : String) (rate size channels : Nat) (data : Bytes) : Bytes :=
  UInt8.ofNat (audioNumber codec rate * 16 + audioBits rate size channels) :: ((if codec = "AAC" then [1] else []) ++ data)

/-- flv_tag.cpp 681-685, output_rtmp.cpp 987-991: the code of a video codec; nothing is copied over the zeroes for others. -/
def videoCC (codec : String) : Bytes :=
  if codec = "AV1" then ccAV1 else if codec = "VP8" then ccVP8 else if codec = "VP9" then ccVP9
  else if codec = "HEVC" then ccHEVC else if codec = "H264" then ccAVC else [0, 0, 0, 0]

/-- flv_tag.cpp 756-759, output_rtmp.cpp 1043-1046. -/
def audioCC (codec : String) : Bytes :=
  if codec = "opus" then ccOpus else if codec = "AC3" then ccAC3 else if codec = "FLAC" then ccFLAC
  else if codec = "AAC" then ccAAC else [0, 0, 0, 0]

/-- flv_tag.cpp 665-736: the content of the tag of `DTSCVideoInit`. -/
def videoInit (codec : String) (init : Bytes) (multi : Option Nat) : Option Bytes :=
  match multi with
  | some m =>
    if codec = "AV1" ∨ codec = "VP8" ∨ codec = "VP9" ∨ codec = "HEVC" ∨ codec = "H264" then
      some (0x96 :: 0 :: (videoCC codec ++ UInt8.ofNat m :: init))
    else none
  | none =>
    if codec = "H264" then some (0x17 :: 0 :: 0 :: 0 :: 0 :: init)
    else if codec = "AV1" ∨ codec = "VP8" ∨ codec = "VP9" ∨ codec = "HEVC" then some (0x90 :: (videoCC codec ++ init))
    else none

/-- flv_tag.cpp 739-815: the content of the tag of `DTSCAudioInit`. -/
def audioInit (codec : String) (rate size channels : Nat) (init : Bytes) (multi : Option Nat) : Option Bytes :=
  match multi with
  | some m =>
    if codec = "opus" ∨ codec = "AC3" ∨ codec = "FLAC" ∨ codec = "AAC" then
      some (0x95 :: 0 :: (audioCC codec ++ UInt8.ofNat m :: init))
    else none
  | none =>
    if codec = "AAC" then some (UInt8.ofNat (0xA0 + audioBits rate size channels) :: 0 :: init)
    else if codec = "opus" ∨ codec = "AC3" ∨ codec = "FLAC" then some (0x90 :: (audioCC codec ++ init))
    else none

/-- output_rtmp.cpp 974-1033: a video message. -/
def sendVideo (codec : String) (multi : Option Nat) (off : Int) (key disp : Bool) (data : Bytes) : Bytes :=
  match multi with
  | some m =>
    UInt8.ofNat (0x86 + frameBits key disp) :: (if off ≠ 0 then 1 else 3) ::
      (videoCC codec ++ UInt8.ofNat m :: ((if off ≠ 0 then off24 off else []) ++ data))
  | none =>
    if codec = "H264" then UInt8.ofNat (7 + frameBits key disp) :: 1 :: ((if off ≠ 0 then off24 off else [0, 0, 0]) ++ data)
    else if codec = "AV1" ∨ codec = "VP8" ∨ codec = "VP9" ∨ codec = "HEVC" then
      UInt8.ofNat (0x80 + (if off ≠ 0 then 1 else 3) + frameBits key disp) :: (videoCC codec ++ ((if off ≠ 0 then off24 off else []) ++ data))
    else UInt8.ofNat ((if codec = "H263" then 2 else 0) + frameBits key disp) :: data

/-- output_rtmp.cpp 1077-1082 and 2505-2513, input_flv.cpp 164-173: the bytes of every pair swapped. Simplified: of an odd number of
bytes the last is kept (the code takes the byte behind it, whatever that is). -/
def swap16 : Bytes → Bytes
  | a :: b :: l => b :: a :: swap16 l
  | l => l

/-- output_rtmp.cpp 1036-1117: an audio message. -/
def sendAudio (codec : String) (multi : Option Nat) (rate size channels : Nat) (data : Bytes) : Bytes :=
  match multi with
  | some m => 0x95 :: 5 :: (audioCC codec ++ UInt8.ofNat m :: data)
  | none =>
    if codec = "opus" ∨ codec = "AC3" ∨ codec = "FLAC" then 0x91 :: (audioCC codec ++ data)
    else
      UInt8.ofNat (audioNumber codec rate * 16 + audioBits rate size channels) ::
        ((if codec = "AAC" then [1] else []) ++ (if codec = "PCM" ∧ size = 16 then swap16 data else data))

/-! ## Reading a stream of tags -/

/-- The state of `MemLoader` and `FileLoader`: `buf` are the `sofar` bytes of `data` read yet. `err` is `FLV::Parse_Error`, after which
callers stop reading (input_flv.cpp 101, 134, 148). -/
structure Loader where
  done : Bool
  len : Nat
  buf : Bytes
  err : Bool
  deriving DecidableEq

/-- flv_tag.cpp 943-957 and 1021-1033: `MemReadUntil`, `FileReadUntil`: what is in the buffer then, and what is left. -/
def readUntil (count : Nat) (buf d : Bytes) : Bytes × Bytes :=
  if buf.length ≥ count then (buf, d) else (buf ++ d.take (count - buf.length), d.drop (count - buf.length))

/-- flv_tag.cpp 52-57. -/
def isHeader (h : Bytes) : Bool := decide (h.take 3 = [70, 76, 86])

/-- flv_tag.cpp 35-48. -/
def checkHeader (h : Bytes) : Bool := isHeader h && decide ((h.drop 5).take 8 = [0, 0, 0, 9, 0, 0, 0, 0])

/-- flv_tag.cpp 989-991: the length of a tag from its start. -/
def tagLen (h : Bytes) : Nat := (h.getD 3 0).toNat + 15 + (h.getD 2 0).toNat * 256 + (h.getD 1 0).toNat * 65536

/-- flv_tag.cpp 965-1013 and 1039-1097: one call of `MemLoader` or `FileLoader`: the state, what is left of the data and the tag, if
there is one. -/
def loadOnce (s : Loader) (d : Bytes) : Loader × Bytes × Option Bytes :=
  if s.done then
    let r := readUntil 11 s.buf d
    if r.1.length ≥ 11 then
      if isHeader r.1 then
        let r2 := readUntil 13 r.1 r.2
        if r2.1.length ≥ 13 then
          if checkHeader r2.1 then ({ s with buf := [] }, r2.2, none) else ({ s with buf := r2.1, err := true }, r2.2, none)
        else ({ s with buf := r2.1 }, r2.2, none)
      else if (r.1.headD 0).toNat > 0x12 then ({ s with buf := r.1, len := tagLen r.1, err := true }, r.2, none)
      else ({ s with buf := r.1, len := tagLen r.1, done := false }, r.2, none)
    else ({ s with buf := r.1 }, r.2, none)
  else
    let r := readUntil s.len s.buf d
    if r.1.length ≥ s.len then ({ s with done := true, buf := [] }, r.2, some r.1) else ({ s with buf := r.1 }, r.2, none)

/-- The callers: as long as there is data and no error (input_flv.cpp 101-116, 134-142, analyser_flv.cpp 24-30). The first argument
limits the number of calls; every call reads at least one byte. -/
def loads : Nat → Loader → Bytes → Loader × List Bytes
  | 0, s, _ => (s, [])
  | k + 1, s, d =>
    if d = [] ∨ s.err then (s, [])
    else
      match loadOnce s d with
      | (s', d', some t) => ((loads k s' d').1, t :: (loads k s' d').2)
      | (s', d', none) => loads k s' d'

/-- A piece of data arrives. -/
def feed (s : Loader) (d : Bytes) : Loader × List Bytes := loads d.length s d

/-- flv_tag.cpp 500-507: a new tag. -/
def fresh : Loader := ⟨true, 0, [], false⟩

/-- Pieces of data arrive one after the other. -/
def feedAll : Loader → List Bytes → Loader × List Bytes
  | s, [] => (s, [])
  | s, p :: ps => ((feedAll (feed s p).1 ps).1, (feed s p).2 ++ (feedAll (feed s p).1 ps).2)

/-- flv_tag.cpp 22: `FLV::Header`. -/
def header : Bytes := [70, 76, 86, 1, 5, 0, 0, 0, 9, 0, 0, 0, 0]

/-- flv_tag.cpp 60-90: `seekToTagType` from the position `pos` of a file: the position at which it ends and whether it was found. A seek
behind the end succeeds, the read after it does not. -/
def seekToTagType (f : Bytes) (t : UInt8) (pos : Nat) : Nat × Bool :=
  match h : f[pos]?, f[pos + 1]?, f[pos + 2]?, f[pos + 3]? with
  | some a, some b, some c, some e =>
    if a = 0x09 ∨ a = 0x08 ∨ a = 0x12 then
      if t = a then (pos, true) else seekToTagType f t (pos + 4 + (b.toNat * 65536 + c.toNat * 256 + e.toNat + 11))
    else (pos, false)
  | _, _, _, _ => (pos, false)
termination_by f.length - pos
decreasing_by
  have := (List.getElem?_eq_some_iff.mp h).1
  omega

end Verif.Flv
