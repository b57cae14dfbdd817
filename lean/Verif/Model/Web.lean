import Verif.Model.DynamicImage

/-! Model of the browser front end: `lib/sia/rust/web/src/{lib,image_model,watermarking_process}.rs` and
`src/Content/{utils.ts,Content.tsx}`, `src/Canvas/Canvas.tsx`. A JavaScript string is the list of its characters; a thrown
exception is `none`. Not modelled: React's rendering itself, console output, network failures while loading the demo image,
getters and setters of the wasm classes (they copy fields). -/
namespace Sia

/-! ### Data URLs, src/Content/utils.ts -/

/-- `[a-zA-Z0-9]` in `mimeRegex`, src/Content/utils.ts:8. -/
def isAlnum (c : Char) : Bool :=
  (decide ('a'.toNat ≤ c.toNat) && decide (c.toNat ≤ 'z'.toNat)) || (decide ('A'.toNat ≤ c.toNat) && decide (c.toNat ≤ 'Z'.toNat)) ||
    (decide ('0'.toNat ≤ c.toNat) && decide (c.toNat ≤ '9'.toNat))

/-- `data:image/`, the start of `mimeRegex`, src/Content/utils.ts:8. -/
def mimeStart : List Char := ['d', 'a', 't', 'a', ':', 'i', 'm', 'a', 'g', 'e', '/']

/-- `;base64,`, the end of `mimeRegex`, src/Content/utils.ts:8. -/
def mimeEnd : List Char := [';', 'b', 'a', 's', 'e', '6', '4', ',']

/-- `removeMime`, src/Content/utils.ts:8, 10: `dataUri.replace(/^data:image\/[a-zA-Z0-9]+;base64,/, '')`. The character after
the greedy run must be `;`, so there is no backtracking. -/
def removeMime (s : List Char) : List Char :=
  if mimeStart.isPrefixOf s then
    let rest := s.drop mimeStart.length
    let sub := rest.takeWhile isAlnum
    let after := rest.dropWhile isAlnum
    if sub ≠ [] ∧ mimeEnd.isPrefixOf after then after.drop mimeEnd.length else s
  else s

/-- Value of a character of the base64 alphabet (RFC 4648), used by the browser's `atob`, src/Content/utils.ts:28. -/
def b64Value? (c : Char) : Option Nat :=
  if 65 ≤ c.toNat ∧ c.toNat ≤ 90 then some (c.toNat - 65)
  else if 97 ≤ c.toNat ∧ c.toNat ≤ 122 then some (c.toNat - 71)
  else if 48 ≤ c.toNat ∧ c.toNat ≤ 57 then some (c.toNat + 4)
  else if c = '+' then some 62
  else if c = '/' then some 63
  else none

/-- The bytes of a sequence of 6-bit values; left-over bits are dropped (WHATWG, for src/Content/utils.ts:28). -/
def b64Bytes : List Nat → List UInt8
  | a :: b :: c :: d :: rest =>
    UInt8.ofNat (a * 4 + b / 16) :: UInt8.ofNat (b % 16 * 16 + c / 4) :: UInt8.ofNat (c % 4 * 64 + d) :: b64Bytes rest
  | [a, b, c] => [UInt8.ofNat (a * 4 + b / 16), UInt8.ofNat (b % 16 * 16 + c / 4)]
  | [a, b] => [UInt8.ofNat (a * 4 + b / 16)]
  | _ => []

/-- ASCII whitespace, ignored by `atob` (WHATWG, for src/Content/utils.ts:28). -/
def isSpace (c : Char) : Bool := c == ' ' || c == '\t' || c == '\n' || c == '\x0c' || c == '\r'

/-- Up to two trailing `=` are removed from a string whose length is divisible by 4 (WHATWG, for
src/Content/utils.ts:28). -/
def dropPadding (s : List Char) : List Char :=
  if s.length % 4 = 0 then
    match s.reverse with
    | '=' :: '=' :: r => r.reverse
    | '=' :: r => r.reverse
    | _ => s
  else s

/-- `atob` (WHATWG "forgiving-base64 decode"), as bytes, called at src/Content/utils.ts:28; `none` is
`InvalidCharacterError`. -/
def atob (s : List Char) : Option (List UInt8) :=
  let t := dropPadding (s.filter fun c => !isSpace c)
  if t.length % 4 = 1 then none else (t.mapM b64Value?).map b64Bytes

/-- `base64ToUInt8Array`, src/Content/utils.ts:27-31: the character codes of `atob`'s result are the bytes. -/
def base64ToUInt8Array (dataUri : List Char) : Option (List UInt8) := atob (removeMime dataUri)

/-- The character of a 6-bit value (RFC 4648), for `readAsDataURL`, src/Content/utils.ts:20, 54. -/
def b64Char (n : Nat) : Char :=
  if n < 26 then Char.ofNat (65 + n) else if n < 52 then Char.ofNat (71 + n) else if n < 62 then Char.ofNat (n - 4)
  else if n = 62 then '+' else '/'

/-- Base64 (RFC 4648) with padding, as used by `FileReader.readAsDataURL`, src/Content/utils.ts:20, 54. -/
def base64 : List UInt8 → List Char
  | a :: b :: c :: rest =>
    b64Char (a.toNat / 4) :: b64Char (a.toNat % 4 * 16 + b.toNat / 16) :: b64Char (b.toNat % 16 * 4 + c.toNat / 64) ::
      b64Char (c.toNat % 64) :: base64 rest
  | [a, b] => [b64Char (a.toNat / 4), b64Char (a.toNat % 4 * 16 + b.toNat / 16), b64Char (b.toNat % 16 * 4), '=']
  | [a] => [b64Char (a.toNat / 4), b64Char (a.toNat % 4 * 16), '=', '=']
  | [] => []

/-- `FileReader.readAsDataURL` (W3C File API) for a blob of the given media type, src/Content/utils.ts:20, 54. -/
def dataUrl (mime : List Char) (bytes : List UInt8) : List Char :=
  ['d', 'a', 't', 'a', ':'] ++ mime ++ [';', 'b', 'a', 's', 'e', '6', '4', ','] ++ base64 bytes

/-- `fileToBase64`, src/Content/utils.ts:51-57, where the file can be read. -/
def fileToBase64 (mime : List Char) (bytes : List UInt8) : List Char := removeMime (dataUrl mime bytes)

/-! ### The wasm library, web/src/lib.rs -/

/-- `ImageModel`, web/src/image_model.rs:4-10. -/
structure ImageModel where
  width : Nat
  height : Nat
  data : List UInt8
  deriving DecidableEq

/-- `WatermarkingProcess`, web/src/watermarking_process.rs:4-13. -/
structure WatermarkingProcess where
  sourceFormat : String
  source : ImageModel
  watermarked : ImageModel
  deriving DecidableEq

/-- `into_rgba8().into_raw()` (image crate): the four samples of every pixel, row by row. web/src/lib.rs:42-50. -/
def rgbaBytes (image : DynamicImage) : List UInt8 :=
  (List.range (image.width * image.height)).flatMap fun k =>
    let p := image.pixel (k % image.width) (k / image.width)
    [p.r, p.g, p.b, p.a]

/-- `get_image_model`, web/src/lib.rs:39-57. -/
def getImageModel (image : DynamicImage) : ImageModel := ⟨image.width, image.height, rgbaBytes image⟩

/-- What the browser side gets from the image crate: the debug name of the guessed format and the decoded image
(`ImageReader`, web/src/lib.rs:59-66). -/
structure WebWorld (F : Type) where
  deps : Deps F
  guess : List UInt8 → Option String
  decode : List UInt8 → Option DynamicImage

section
variable {F : Type} [FloatOps F]

/-- `get_source`, web/src/lib.rs:59-66. -/
def getSource (W : WebWorld F) (blob : List UInt8) : Res (DynamicImage × String) :=
  match W.guess blob with
  | none => .error .unwrapNone
  | some format =>
    match W.decode blob with
    | none => .error .fileError
    | some image => .ok (image, format)

/-- `get_watermarking_process`, web/src/lib.rs:17-37, with `get_watermarked`, lib.rs:68-79. -/
def getWatermarkingProcess (W : WebWorld F) (blob : List UInt8) (embeddingDepth step : F) : Res WatermarkingProcess := do
  let (source, format) ← getSource W blob
  let watermarked ← watermark W.deps source embeddingDepth step 11
  return ⟨format, getImageModel source, getImageModel watermarked⟩

/-- `getWatermarkingProcess` of src/Content/Content.tsx:12-23 (depth 500, step 1) and `sourceBase64ToWatermarkingProcess`,
src/Content/utils.ts:59-70; `none` where an exception is thrown (a panic of the wasm code is one). -/
def contentProcess (W : WebWorld F) (url : List Char) : Option WatermarkingProcess :=
  match base64ToUInt8Array url with
  | none => none
  | some blob => (getWatermarkingProcess W blob (FloatOps.ofInt 500) (FloatOps.ofInt 1)).toOption

/-! ### The canvas, src/Canvas/Canvas.tsx -/

/-- The effect of `Canvas`, src/Canvas/Canvas.tsx:19-26: `createImageData` throws on an empty size, `data.set` on too much data;
missing data stay 0. The result is the drawn byte at a position of the image data. -/
def drawCanvas (m : ImageModel) : Option (Nat → UInt8) :=
  if m.width = 0 ∨ m.height = 0 then none
  else if 4 * (m.width * m.height) < m.data.length then none
  else some fun i => m.data.getD i 0

/-! ### The component `Content`, src/Content/Content.tsx -/

/-- A chosen file: media type and bytes (`File`, src/Content/Content.tsx:38, 54). -/
structure WebFile where
  mime : List Char
  bytes : List UInt8
  deriving DecidableEq

/-- State of the component, src/Content/Content.tsx:25-42: what is shown (`watermarkingProcess`), the files that are being read,
by the number of their choice, how many files have been chosen, and how many loads of the demo image are under way. -/
structure ContentState where
  shown : Option WatermarkingProcess
  pending : List (Nat × WebFile)
  chosen : Nat
  demos : Nat

/-- What can happen: the demo image arrives as a data URL, the user chooses a file or closes the file dialog without choosing
one, the reader of a choice ends or fails. src/Content/Content.tsx:31-42. -/
inductive ContentEvent where
  | demo (url : List Char)
  | choose (file : WebFile)
  | cancel
  | ready (choice : Nat)
  | unreadable (choice : Nat)

/-- `setWatermarkingProcess(getWatermarkingProcess(..))`, Content.tsx:34, 40: an exception leaves the state alone. -/
def showResult (old : Option WatermarkingProcess) : Option WatermarkingProcess → Option WatermarkingProcess
  | some p => some p
  | none => old

/-- One event. A load of the demo image ends at most once (Content.tsx:31-36); as long as nothing is shown there is no file
selector (Content.tsx:44-46); every reader ends at most once (Content.tsx:38-42, utils.ts:51-57), and any number of them may be
under way. `readAsDataURL(undefined)` throws, so a cancelled dialog changes nothing. `none` if the event cannot happen.
A load of the demo image that fails before a data URL is there is the absence of its `demo` event. -/
def contentStep (W : WebWorld F) (s : ContentState) : ContentEvent → Option ContentState
  | .demo url =>
    if s.demos = 0 then none
    else some { s with shown := showResult s.shown (contentProcess W url), demos := s.demos - 1 }
  | .choose file =>
    if s.shown = none then none else some { s with pending := s.pending ++ [(s.chosen, file)], chosen := s.chosen + 1 }
  | .cancel => if s.shown = none then none else some s
  | .ready k =>
    match s.pending.find? (fun p => p.1 == k) with
    | none => none
    | some (_, file) =>
      some { s with shown := showResult s.shown (contentProcess W (fileToBase64 file.mime file.bytes))
                    pending := s.pending.filter fun p => p.1 != k }
  | .unreadable k =>
    match s.pending.find? (fun p => p.1 == k) with
    | none => none
    | some _ => some { s with pending := s.pending.filter fun p => p.1 != k }

/-- The component after mounting, Content.tsx:25-36. The effect runs once in a production build and twice in a development build,
where src/index.tsx:11 (`React.StrictMode`, React 18) mounts every component twice. -/
def contentStart (demos : Nat) : ContentState := ⟨none, [], 0, demos⟩

/-- A sequence of events, in any order the browser produces (Content.tsx:31-42). -/
def contentRun (W : WebWorld F) : ContentState → List ContentEvent → Option ContentState
  | s, [] => some s
  | s, e :: es => (contentStep W s e).bind fun s' => contentRun W s' es

end
end Sia
