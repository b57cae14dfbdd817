import Verif.Model.CliReport

/-! What the library writes to standard output while it works: the `println!` calls of process.rs, image-features, zernike, embedding
and encoding. A line is its label and the values printed; the `{:?}` formatting of the values is not modelled. Every function below
repeats one of the first model with its `println!` calls in place; Props/LogProps.lean proves that the results are the same. -/
namespace Sia

/-- A line of the library's output. watermarking/src/process.rs:39-62, 92-112; image-features/src/lib.rs:18; zernike/src/lib.rs:21;
embedding/src/lib.rs:13; embedding/src/io/data.rs:15-48; encoding/src/lib.rs:58-74, 108-118, 135. -/
inductive LogLine (F : Type) where
  | momentIndices (indices : List Nat)
  | moments (moments : List F)
  | features (features : List F)
  | quantized (cells : List Int)
  | perturbation (bits : List Bool)
  | signature (bytes : List UInt8)
  | watermark (record : Watermark)
  | watermarkData (bytes : List UInt8)
  | capacity (bytes : Nat)
  | data (bytes : List UInt8)
  | serialized (bytes : List UInt8)
  | toBeEncoded (bytes : List UInt8)
  | binaryLength (bits : Nat)
  | code (k n : Nat)
  | wordsToEncode (count : Nat)
  | bitsLength (bits : Nat)
  | wordsToDecode (count : Nat)
  | expectedLength (bytes : Nat)
  | dataLength (bytes : Nat)
  | dataRange (start stop : Nat)
  | deserialized (bytes : List UInt8)
  | extracted (bytes : List UInt8)
  | deserializedWatermark (record : Watermark)
  | restored (cells : List Int)
  | restoredBytes (bytes : List UInt8)

/-- The constant text a line begins with. watermarking/src/process.rs:39-62, 92-112; image-features/src/lib.rs:18;
zernike/src/lib.rs:21; embedding/src/lib.rs:13; embedding/src/io/data.rs:15-48; encoding/src/lib.rs:58-74, 108-118, 135. -/
def LogLine.label {F : Type} : LogLine F → String
  | momentIndices _ => "Zernike moments indices: "
  | moments _ => "Zernike moments: "
  | features _ => "features: "
  | quantized _ => "quantized_features: "
  | perturbation _ => "perturbation_vector: "
  | signature _ => "signature: "
  | watermark _ => "watermark: "
  | watermarkData _ => "watermark data: "
  | capacity _ => "domain capacity: "
  | data _ => "data: "
  | serialized _ => "serialized data bytes: "
  | toBeEncoded _ => "bytes to be encoded with length header: "
  | binaryLength _ => "binary length of the data to be encoded: "
  | code _ _ => "use LDPC code: ("
  | wordsToEncode _ => "words to be encoded: "
  | bitsLength _ => "bits length: "
  | wordsToDecode _ => "codewords to be decoded: "
  | expectedLength _ => "expected data bytes length: "
  | dataLength _ => "data length: "
  | dataRange _ _ => "data bytes: ("
  | deserialized _ => "deserialized data: "
  | extracted _ => "extracted watermark data: "
  | deserializedWatermark _ => "deserialized watermark data: "
  | restored _ => "restored quantized features: "
  | restoredBytes _ => "restored quantized features bytes: "

/-- A computation that prints: the lines, and the result or the panic after them. watermarking/src/process.rs:17-115. -/
structure Logged (F α : Type) where
  lines : List (LogLine F)
  result : Res α

instance {F : Type} : Monad (Logged F) where
  pure a := ⟨[], .ok a⟩
  bind x f := match x.result with
    | .ok a => ⟨x.lines ++ (f a).lines, (f a).result⟩
    | .error e => ⟨x.lines, .error e⟩

/-- `println!`. watermarking/src/process.rs:39. -/
def Logged.say {F : Type} (line : LogLine F) : Logged F Unit := ⟨[line], .ok ()⟩

/-- A computation without output. watermarking/src/process.rs:28. -/
def Logged.silent {F α : Type} (r : Res α) : Logged F α := ⟨[], r⟩

section
variable {F : Type} [FloatOps F]

/-- `calculate_features`, image-features/src/lib.rs:9-27 and zernike/src/lib.rs:14-27. -/
def Logged.channelFeatures (D : Deps F) (image : Mat UInt8) (featuresAmount : Nat) : Logged F (List F) := do
  let order ← Logged.silent (orderByFeaturesAmount featuresAmount)
  Logged.say (.momentIndices (Sia.momentIndices order))
  let moments ← Logged.silent ((Sia.momentIndices order).mapM fun index =>
    if image.rows * image.rows < image.rows * image.cols then (.error .unwrapNone : Res F)
    else .ok (D.momentAbs order index image))
  Logged.say (.moments moments)
  return moments

/-- Features of a channel, process.rs:31-39 and 83-92. -/
def Logged.equalizedFeatures (D : Deps F) (channel : GrayImage) (featuresAmount : Nat) : Logged F (List F) := do
  let equalized ← Logged.silent (fromShapeVec channel.width channel.height (D.equalize channel))
  let features ← Logged.channelFeatures D equalized featuresAmount
  Logged.say (.features features)
  return features

/-- `get_domain_capacity`, embedding/src/lib.rs:11-20. -/
def Logged.getDomainCapacity (w h : Nat) : Logged F Nat := do
  Logged.say (.capacity (getCapacity w h))
  match getCodeForEncode (getCapacity w h) with
  | none => Logged.silent (.error .capacityBelowMinimum)
  | some _ => return getCapacity w h

/-- `Data::serialize`, embedding/src/io/data.rs:14-26. -/
def Logged.dataSerialize (bytes : List UInt8) : Logged F (List UInt8) := do
  Logged.say (.data bytes)
  let data ← Logged.silent (Sia.dataSerialize bytes)
  Logged.say (.serialized data)
  return data

/-- `deserialize`, embedding/src/io/data.rs:29-50. -/
def Logged.dataDeserialize (bytes : List UInt8) : Logged F (List UInt8) := do
  Logged.say (.serialized bytes)
  if bytes.length < 3 then Logged.silent (.error .tooShortData)
  let lengthBytes ← Logged.silent (slice bytes 0 2)
  let lengths ← Logged.silent (vecU16FromBytes lengthBytes)
  match lengths[0]? with
  | none => Logged.silent (.error .unwrapNone)
  | some dataLength =>
    Logged.say (.dataLength dataLength.toNat)
    Logged.say (.dataRange 2 (2 + dataLength.toNat))
    let data ← Logged.silent (slice bytes 2 (2 + dataLength.toNat))
    Logged.say (.deserialized data)
    return data

/-- `encode`, encoding/src/lib.rs:51-96. -/
def Logged.encode (L : Ldpc) (input : List UInt8) (codewordLength : Nat) : Logged F (List UInt8) := do
  let bytes := [(u16ToBytes (input.length % 65536)).1, (u16ToBytes (input.length % 65536)).2] ++ input
  Logged.say (.toBeEncoded bytes)
  Logged.say (.binaryLength (8 * bytes.length))
  match getCodeByCodewordLength codewordLength with
  | none => return bytes
  | some code =>
    Logged.say (.code code.k code.n)
    Logged.say (.wordsToEncode (chunks (code.k / 8) bytes).length)
    return (chunks (code.k / 8) bytes).flatMap fun word => L.encode code (padWord word code.k)

/-- `decode`, encoding/src/lib.rs:104-144. -/
def Logged.decode (L : Ldpc) (bytes : List UInt8) (codewordLength : Nat) : Logged F (List UInt8) := do
  Logged.say (.bitsLength (8 * bytes.length))
  match getCodeByCodewordLength codewordLength with
  | none => return bytes
  | some code =>
    Logged.say (.code code.k code.n)
    Logged.say (.wordsToDecode (chunks (code.n / 8) bytes).length)
    let words ← Logged.silent ((chunks (code.n / 8) bytes).mapM fun w =>
      if w.length = code.n / 8 then slice (L.decode code w) 0 (code.k / 8) else (.error .ldpcBlockLength : Res (List UInt8)))
    match words.flatten[0]?, words.flatten[1]? with
    | some b1, some b2 =>
      Logged.say (.expectedLength (bytesToU16 b1 b2))
      Logged.silent (slice words.flatten 2 (bytesToU16 b1 b2 + 2))
    | _, _ => Logged.silent (.error .indexOutOfRange)

/-- `embed`, embedding/src/lib.rs:22-55. -/
def Logged.embed (L : Ldpc) (image : Mat UInt8) (bytes : List UInt8) (depth : F) (levels : Nat) : Logged F (Mat UInt8) := do
  let coefficients ← Logged.silent (dwt2d (image.map (pixelToFloat (F := F))) levels false)
  if 31 ≤ levels then Logged.silent (.error .arithOverflow)
  let ll := lowLow coefficients levels
  let capacity ← Logged.getDomainCapacity ll.rows ll.cols
  let serialized ← Logged.dataSerialize bytes
  let encoded ← Logged.encode L serialized capacity
  let ll' ← Logged.silent (write ll encoded depth)
  let restored ← Logged.silent (dwt2d { coefficients with get := ll'.get } levels true)
  return restored.map floatToPixel

/-- `extract`, embedding/src/lib.rs:57-82. -/
def Logged.extract (L : Ldpc) (image : Mat UInt8) (depth : F) (levels : Nat) : Logged F (List UInt8) := do
  let coefficients ← Logged.silent (dwt2d (image.map (pixelToFloat (F := F))) levels false)
  if 31 ≤ levels then Logged.silent (.error .arithOverflow)
  let ll := lowLow coefficients levels
  let extracted ← Logged.silent (read ll depth)
  let capacity ← Logged.getDomainCapacity ll.rows ll.cols
  let decoded ← Logged.decode L extracted capacity
  Logged.dataDeserialize decoded

/-- `watermark_channel`, process.rs:17-68. -/
def Logged.watermarkChannel (D : Deps F) (channel : GrayImage) (embeddingDepth step : F) (featuresAmount dwtLevels : Nat) :
    Logged F GrayImage := do
  let pixels ← Logged.silent (fromShapeVec channel.width channel.height channel.raw)
  let features ← Logged.equalizedFeatures D channel featuresAmount
  let (quantized, perturbation) ← Logged.silent (threeBitQuantization features step)
  Logged.say (.quantized quantized)
  Logged.say (.perturbation perturbation)
  let signature ← Logged.silent (sign D.ed (vecI64ToBytes quantized) privateKey publicKey)
  Logged.say (.signature signature)
  let watermark : Watermark := { perturbationVector := perturbation, signature := signature, text := watermarkText }
  Logged.say (.watermark watermark)
  let data ← Logged.silent watermark.serialize
  Logged.say (.watermarkData data)
  let marked ← Logged.embed D.ldpc pixels data embeddingDepth dwtLevels
  Logged.silent (GrayImage.fromRaw channel.width channel.height marked.toList)

/-- `authenticate_channel`, process.rs:70-115. -/
def Logged.authenticateChannel (D : Deps F) (channel : GrayImage) (embeddingDepth step : F) (featuresAmount dwtLevels : Nat) :
    Logged F Bool := do
  let pixels ← Logged.silent (fromShapeVec channel.width channel.height channel.raw)
  let features ← Logged.equalizedFeatures D channel featuresAmount
  let extracted ← Logged.extract D.ldpc pixels embeddingDepth dwtLevels
  Logged.say (.extracted extracted)
  let watermark ← Logged.silent (deserializeWatermark extracted)
  Logged.say (.deserializedWatermark watermark)
  let quantized ← Logged.silent (threeBitDequantization features watermark.perturbationVector step)
  Logged.say (.restored quantized)
  Logged.say (.restoredBytes (vecI64ToBytes quantized))
  Logged.silent (verify D.ed (vecI64ToBytes quantized) watermark.signature publicKey)

/-- `watermark`, watermarking/src/lib.rs:13-112. -/
def Logged.watermarkImage (D : Deps F) (image : DynamicImage) (embeddingDepth step : F) (featuresAmount : Nat) :
    Logged F DynamicImage := do
  let color := image.color
  let red ← Logged.watermarkChannel D (image.plane Rgba.r) embeddingDepth step featuresAmount dwtLevels
  if color.hasColor then
    let green ← Logged.watermarkChannel D (image.plane Rgba.g) embeddingDepth step featuresAmount dwtLevels
    let blue ← Logged.watermarkChannel D (image.plane Rgba.b) embeddingDepth step featuresAmount dwtLevels
    return assemble color image.width image.height (outPixel color red green blue (image.plane Rgba.a))
  else
    return assemble color image.width image.height (outPixel color red red red (image.plane Rgba.a))

end

/-! ### The command line tool with everything it prints, and a standard output that stops working -/

section
variable {F : Type} [FloatOps F]

/-- Something the outside can see: a change of a file, a line of the tool, a line of the library. cli/src/main.rs:30-72. -/
inductive Effect (W : World F) where
  | write (e : Event W)
  | print (line : String)
  | log (line : LogLine F)

/-- Whether an effect needs standard output. cli/src/main.rs:24, 65-74. -/
def Effect.isOutput {W : World F} : Effect W → Bool
  | write _ => false
  | print _ => true
  | log _ => true

/-- One round of the loop with all its output, cli/src/main.rs:30-72: the library's lines while it marks the picture, then the rest of
`processInputActions` (which prints nothing of its own before the library is called, and where the library's result is the same). -/
def processInputEffects (W : World F) (fs : Files W.Loc) (suffix : List Char) (folder : Option PathStr) (elapsed : Nat × Nat)
    (input : PathStr) : List (Effect W) × Option Panic :=
  let lines := match (fs (W.resolve input)).bind (W.decode input) with
    | none => []
    | some image => (Logged.watermarkImage W.deps image (FloatOps.ofInt 100) (FloatOps.ofInt 1) 11).lines
  let (actions, r) := processInputActions W fs suffix folder elapsed input
  (lines.map .log ++ actions.map fun a => match a with | .write e => .write e | .print l => .print l, r)

/-- The changes of files among some effects. cli/src/main.rs:30-72. -/
def Effect.writes {W : World F} (as : List (Effect W)) : List (Event W) :=
  as.filterMap fun a => match a with | .write e => some e | _ => none

/-- The loop with all its output, cli/src/main.rs:30-72. -/
def processInputsEffects (W : World F) (suffix : List Char) (folder : Option PathStr) (clock : Nat → Nat × Nat) :
    Files W.Loc → List PathStr → List (Effect W) × Option Panic
  | _, [] => ([], none)
  | fs, input :: rest =>
    match processInputEffects W fs suffix folder (clock 0) input with
    | (as, some p) => (as, some p)
    | (as, none) =>
      let (as', r) := processInputsEffects W suffix folder (fun k => clock (k + 1)) (W.after fs (Effect.writes as)) rest
      (as ++ as', r)

/-- `process` with all its output, cli/src/main.rs:16-76. -/
def processEffects (W : World F) (clock : Nat → Nat × Nat) (fs : Files W.Loc) (inputs : List PathStr) (suffix : Option (List Char))
    (output : Option PathStr) : List (Effect W) × Option Panic :=
  match suffix with
  | none => ([.print "No output image"], none)
  | some s =>
    match output with
    | none => processInputsEffects W s none clock fs inputs
    | some o =>
      if W.blocked o then ([.print (String.ofList o ++ " is not a folder")], some .exitOne)
      else
        match W.folder o with
        | none => ([], some .fileError)
        | some f => processInputsEffects W s (some f) clock fs inputs

/-- What happens when standard output accepts `room` lines and then fails (a closed pipe, a full disk): `println!` panics, and nothing
after it is done. (Rust std; the standard library ignores SIGPIPE.) cli/src/main.rs:65; watermarking/src/process.rs:39. -/
def Effect.until {W : World F} : Nat → List (Effect W) × Option Panic → List (Effect W) × Option Panic
  | _, ([], r) => ([], r)
  | room, (a :: as, r) =>
    if a.isOutput then
      match room with
      | 0 => ([], some .stdoutClosed)
      | room + 1 => (a :: (Effect.until room (as, r)).1, (Effect.until room (as, r)).2)
    else (a :: (Effect.until room (as, r)).1, (Effect.until room (as, r)).2)

end
end Sia
