import Verif.Model.ModelList
/-
Model of the text codecs around `ModelList`: `ModelList::setEncoding`, `ModelListPrivate::readFile`, `KompareProcess::setEncoding`,
`KompareProcess::start`, `KompareProcess::slotFinished`, and what a `QTextStream` writes.

A decoder is a machine that takes one byte after the other (`QStringDecoder` keeps incomplete sequences between calls of `decode`).
UTF-8 and Latin-1 are given; the codec with a given name, and the one of the system, are parameters.  A `QString` is a list of characters
here, so lone surrogates do not exist.
-/
namespace KompareDiff2

/-- A text codec: `QStringDecoder` (`resetState`, `decode` byte by byte) and `QStringEncoder`. -/
structure Codec where
  State : Type
  init : State
  step : State → UInt8 → State × Str
  encode : Str → List UInt8

/-- `QStringDecoder::decode`: goes on in the state left by the previous call. -/
def Codec.decode (c : Codec) : c.State → List UInt8 → c.State × Str
  | st, [] => (st, [])
  | st, b :: bs =>
    let r := c.step st b
    let q := c.decode r.1 bs
    (q.1, r.2 ++ q.2)

/-! ### UTF-8 -/

/-- The bytes of a character in UTF-8 (Qt: `QUtf8Functions::toUtf8`). -/
def utf8Char (c : Char) : List UInt8 :=
  let v := c.toNat
  if v < 0x80 then [UInt8.ofNat v]
  else if v < 0x800 then [UInt8.ofNat (0xC0 + v / 64), UInt8.ofNat (0x80 + v % 64)]
  else if v < 0x10000 then [UInt8.ofNat (0xE0 + v / 4096), UInt8.ofNat (0x80 + v / 64 % 64), UInt8.ofNat (0x80 + v % 64)]
  else [UInt8.ofNat (0xF0 + v / 262144), UInt8.ofNat (0x80 + v / 4096 % 64), UInt8.ofNat (0x80 + v / 64 % 64), UInt8.ofNat (0x80 + v % 64)]

/-- `QStringEncoder` for UTF-8, and what `QTextStream` writes: no byte order mark is added (Qt's defaults). -/
def utf8Encode (s : Str) : List UInt8 := s.flatMap utf8Char

/-- State of the UTF-8 decoder: whether a byte order mark may come (Qt: `HeaderDone` not set), how many bytes are missing, the bits so far
and the least value allowed. -/
structure Utf8State where
  start : Bool := true
  missing : Nat := 0
  acc : Nat := 0
  least : Nat := 0
  deriving Repr, DecidableEq

/-- A decoded character: a byte order mark at the very beginning is left out (`QStringConverter::Flag::Default`). -/
def utf8Emit (start : Bool) (c : Char) : Utf8State × Str :=
  ({ start := false }, if start && c.toNat == 0xFEFF then [] else [c])

/-- The first byte of a sequence. -/
def utf8Lead (start : Bool) (b : UInt8) : Utf8State × Str :=
  let v := b.toNat
  if v < 0x80 then utf8Emit start (Char.ofNat v)
  else if v < 0xC2 then utf8Emit false (Char.ofNat 0xFFFD)
  else if v < 0xE0 then ({ start := start, missing := 1, acc := v - 0xC0, least := 0x80 }, [])
  else if v < 0xF0 then ({ start := start, missing := 2, acc := v - 0xE0, least := 0x800 }, [])
  else if v < 0xF5 then ({ start := start, missing := 3, acc := v - 0xF0, least := 0x10000 }, [])
  else utf8Emit false (Char.ofNat 0xFFFD)

/-- One byte (Qt: `QUtf8::convertToUnicode` with a state).  Simplified for malformed input: one replacement character for a broken
sequence (Qt may give one for each of its bytes). -/
def utf8Step (st : Utf8State) (b : UInt8) : Utf8State × Str :=
  let v := b.toNat
  match st.missing with
  | 0 => utf8Lead st.start b
  | n + 1 =>
    if 0x80 ≤ v ∧ v < 0xC0 then
      let acc := st.acc * 64 + (v - 0x80)
      match n with
      | 0 =>
        if st.least ≤ acc ∧ (acc < 0xD800 ∨ (0xDFFF < acc ∧ acc < 0x110000)) then utf8Emit st.start (Char.ofNat acc)
        else utf8Emit false (Char.ofNat 0xFFFD)
      | n + 1 => ({ st with missing := n + 1, acc := acc }, [])
    else
      let r := utf8Lead false b
      (r.1, Char.ofNat 0xFFFD :: r.2)

/-- UTF-8. -/
def utf8 : Codec := { State := Utf8State, init := {}, step := utf8Step, encode := utf8Encode }

/-! ### Latin-1 -/

/-- ISO 8859-1: each byte is the character with that number; other characters are written as `?` (Qt: `QLatin1::convertFromUnicode`). -/
def latin1 : Codec :=
  { State := Unit, init := (), step := fun _ b => ((), [Char.ofNat b.toNat])
    encode := fun s => s.map (fun c => if c.toNat < 256 then UInt8.ofNat c.toNat else 63) }

/-! ### Choosing and using a codec -/

/-- What Qt knows: the codec with a name (`QStringDecoder(const char *)`, invalid: `none`) and the one of the locale
(`QStringDecoder::System`). -/
structure Codecs where
  named : Str → Option Codec
  system : Codec

/-- `encoding.compare("default", Qt::CaseInsensitive) == 0`. -/
def isDefaultName (name : Str) : Bool := name.map Char.toLower == str "default"

/-- A valid `QStringDecoder`: its codec and the state it was left in. -/
structure Decoder where
  codec : Codec
  state : codec.State

/-- `resetState`. -/
def Decoder.reset (d : Decoder) : Decoder := ⟨d.codec, d.codec.init⟩

/-- A new decoder. -/
def Codec.decoder (c : Codec) : Decoder := ⟨c, c.init⟩

/-- `encoding` and `textDecoder` of `ModelListPrivate`, modellist_p.h:96-97 (a default constructed decoder is invalid: `none`). -/
structure TextState where
  encoding : Str := []
  decoder : Option Decoder := none

/-- `ModelList::setEncoding`, modellist.cpp:387-402. -/
def TextState.setEncoding (q : Codecs) (name : Str) (_t : TextState) : TextState :=
  if isDefaultName name then { encoding := name, decoder := some q.system.decoder }
  else
    match q.named name with
    | some c => { encoding := name, decoder := some c.decoder }
    | none => { encoding := name, decoder := some q.system.decoder }

/-- The loop of `readFile`, modellist_p.cpp:56-61: chunks of 4096 bytes until the end of the file. -/
def readLoop (d : Decoder) (bytes : List UInt8) (contents : Str) : Decoder × Str :=
  if bytes.length = 0 then (d, contents)
  else
    let r := d.codec.decode d.state (bytes.take 4096)
    readLoop ⟨d.codec, r.1⟩ (bytes.drop 4096) (contents ++ r.2)
  termination_by bytes.length
  decreasing_by simp only [List.length_drop]; omega

/-- `ModelListPrivate::readFile`, modellist_p.cpp:45-66, for the bytes of the file (none if it could not be opened). -/
def TextState.readFile (q : Codecs) (t : TextState) (bytes : List UInt8) : TextState × Str :=
  let d := match t.decoder with
    | none => q.system.decoder
    | some d => d
  let r := readLoop d.reset bytes []
  ({ t with decoder := some r.1 }, r.2)

/-- The codec of a `KompareProcess`, kompareprocess.cpp:214-228 (called with the encoding of the list, modellist.cpp:166, 527).  The decoder
and the encoder with a name are taken to be valid or invalid together. -/
def processCodec (q : Codecs) (t : TextState) : Codec :=
  if isDefaultName t.encoding then q.system
  else
    match q.named t.encoding with
    | some c => c
    | none => q.system

/-- The bytes a finished process leaves behind. -/
structure RawResult where
  exitCode : Int
  exitStatus : ExitStatus
  stdout : List UInt8
  stderr : List UInt8

/-- `KompareProcess::slotFinished`, kompareprocess.cpp:249-255: the decoder is reset before the output and before the error text. -/
def RawResult.decoded (c : Codec) (r : RawResult) : ProcessResult :=
  { exitCode := r.exitCode, exitStatus := r.exitStatus, stdout := (c.decode c.init r.stdout).2, stderr := (c.decode c.init r.stderr).2 }

/-- What `start` writes to the standard input of the process, kompareprocess.cpp:244-246. -/
def stdinBytes (c : Codec) (input : Option Str) : List UInt8 :=
  match input with
  | some s => c.encode s
  | none => []

/-- The bytes written to a temporary file through a `QTextStream`, modellist.cpp:261, 290, 543-545: `setEncoding` is never called on the
stream, Qt 6 uses UTF-8 then. -/
def streamBytes (text : Str) : List UInt8 := utf8Encode text

/-- A world of files with bytes: the environment in which the files are read with the decoder of the list.  The reads of one call follow
each other; each one resets the decoder first. -/
def Env.decoded (e : Env) (q : Codecs) (t : TextState) (bytes : Str → List UInt8) : Env :=
  { e with contents := fun f => (t.readFile q (bytes f)).2 }

end KompareDiff2
