import Verif.Model.Web

/-! The objects the wasm library hands to the page, web/src/{image_model,watermarking_process}.rs, and the page's code that uses them,
src/Content/utils.ts. Values of exported structs live in the memory of the wasm module; JavaScript holds wrapper objects with a
pointer. A method that takes such a struct by value empties the wrapper it is given, and a call on an empty wrapper throws
(wasm-bindgen's generated code; not in /repo). A `Uint8Array` field is a reference to an array of the JavaScript heap, and cloning it
clones the reference. Nothing is ever freed except by `free`, which JavaScript may call on any wrapper. -/
namespace Sia

/-- `ImageModel`, web/src/image_model.rs:4-10; `data` is the number of a JavaScript array. -/
structure ImageObject where
  width : Nat
  height : Nat
  data : Nat
  deriving DecidableEq

/-- `WatermarkingProcess`, web/src/watermarking_process.rs:4-13. -/
structure ProcessObject where
  sourceFormat : String
  source : ImageObject
  watermarked : ImageObject
  deriving DecidableEq

/-- The heap: byte arrays and wrappers by number; `none` is a wrapper whose value has been moved away or freed.
web/src/{image_model,watermarking_process}.rs. -/
structure JsHeap where
  arrays : List (List UInt8)
  images : List (Option ImageObject)
  processes : List (Option ProcessObject)

/-- The value behind an image wrapper. web/src/image_model.rs:4-10. -/
def JsHeap.image? (h : JsHeap) (i : Nat) : Option ImageObject := h.images[i]?.join

/-- The value behind a process wrapper. web/src/watermarking_process.rs:4-13. -/
def JsHeap.process? (h : JsHeap) (p : Nat) : Option ProcessObject := h.processes[p]?.join

/-- JavaScript code: a result, or `none` for an exception, and the heap afterwards. src/Content/utils.ts. -/
def Js (α : Type) : Type := JsHeap → Option α × JsHeap

instance : Monad Js where
  pure a := fun h => (some a, h)
  bind x f := fun h => match x h with
    | (some a, h') => f a h'
    | (none, h') => (none, h')

/-- A new `Uint8Array` with the given bytes. web/src/lib.rs:55; src/Content/utils.ts:27-28. -/
def Js.newArray (bytes : List UInt8) : Js Nat := fun h => (some h.arrays.length, { h with arrays := h.arrays ++ [bytes] })

/-- `array[k] = value` on a `Uint8Array`: without effect beyond the end. (Any JavaScript code may do this.) src/Content/image.ts:7-11. -/
def Js.store (a k : Nat) (value : UInt8) : Js Unit := fun h => (some (), { h with arrays := h.arrays.modify a (·.set k value) })

/-- `array.slice()`, src/Content/utils.ts:37: a copy. -/
def Js.slice (a : Nat) : Js Nat := fun h =>
  match h.arrays[a]? with
  | none => (none, h)
  | some bytes => Js.newArray bytes h

/-- A new wrapper of an image. web/src/image_model.rs:14-21; web/src/watermarking_process.rs:38-40, 46-48. -/
def Js.wrap (o : ImageObject) : Js Nat := fun h => (some h.images.length, { h with images := h.images ++ [some o] })

/-- `new ImageModel(width, height, data)`, web/src/image_model.rs:14-21; a number becomes a `u32` modulo 2^32. -/
def Js.imageNew (width height data : Nat) : Js Nat := fun h =>
  if data < h.arrays.length then Js.wrap ⟨width % 2 ^ 32, height % 2 ^ 32, data⟩ h else (none, h)

/-- `get_width`, web/src/image_model.rs:23-25. -/
def Js.getWidth (i : Nat) : Js Nat := fun h => ((h.image? i).map (·.width), h)

/-- `get_height`, web/src/image_model.rs:31-33. -/
def Js.getHeight (i : Nat) : Js Nat := fun h => ((h.image? i).map (·.height), h)

/-- `get_data`, web/src/image_model.rs:39-41: the same array, not a copy. -/
def Js.getData (i : Nat) : Js Nat := fun h => ((h.image? i).map (·.data), h)

/-- A method with `&mut self` of `ImageModel`, web/src/image_model.rs:27-29, 35-37, 43-45. -/
def Js.updateImage (i : Nat) (f : ImageObject → ImageObject) : Js Unit := fun h =>
  match h.image? i with
  | none => (none, h)
  | some o => (some (), { h with images := h.images.set i (some (f o)) })

/-- `set_width`, web/src/image_model.rs:27-29. -/
def Js.setWidth (i width : Nat) : Js Unit := Js.updateImage i fun o => { o with width := width % 2 ^ 32 }

/-- `set_height`, web/src/image_model.rs:35-37. -/
def Js.setHeight (i height : Nat) : Js Unit := Js.updateImage i fun o => { o with height := height % 2 ^ 32 }

/-- `set_data`, web/src/image_model.rs:43-45. -/
def Js.setData (i data : Nat) : Js Unit := fun h =>
  if data < h.arrays.length then Js.updateImage i (fun o => { o with data := data }) h else (none, h)

/-- The value of a wrapper given away by value: the wrapper is empty afterwards.
web/src/watermarking_process.rs:18-28, 42-44, 50-52. -/
def Js.moveImage (i : Nat) : Js (Option ImageObject) := fun h => (some (h.image? i), { h with images := h.images.set i none })

/-- `ImageModel.free()` (generated by wasm-bindgen for web/src/image_model.rs:4). -/
def Js.freeImage (i : Nat) : Js Unit := fun h => (some (), { h with images := h.images.set i none })

/-- `WatermarkingProcess.free()` (generated by wasm-bindgen for web/src/watermarking_process.rs:4). -/
def Js.freeProcess (p : Nat) : Js Unit := fun h => (some (), { h with processes := h.processes.set p none })

/-- A new wrapper of a process. web/src/watermarking_process.rs:18-28; web/src/lib.rs:32-36. -/
def Js.wrapProcess (o : ProcessObject) : Js Nat := fun h =>
  (some h.processes.length, { h with processes := h.processes ++ [some o] })

/-- An exception. web/src/watermarking_process.rs:18-28. -/
def Js.throw {α : Type} : Js α := fun h => (none, h)

/-- `new WatermarkingProcess(format, source, watermarked)`, web/src/watermarking_process.rs:18-28: both wrappers are emptied before the
library looks at the pointers. -/
def Js.processNew (format : String) (source watermarked : Nat) : Js Nat := do
  let s ← Js.moveImage source
  let w ← Js.moveImage watermarked
  match s, w with
  | some s, some w => Js.wrapProcess ⟨format, s, w⟩
  | _, _ => Js.throw

/-- `get_source_format`, web/src/watermarking_process.rs:30-32. -/
def Js.getFormat (p : Nat) : Js String := fun h => ((h.process? p).map (·.sourceFormat), h)

/-- `get_source`, web/src/watermarking_process.rs:38-40: a new wrapper around a clone. -/
def Js.getSource (p : Nat) : Js Nat := fun h =>
  match h.process? p with
  | none => (none, h)
  | some o => Js.wrap o.source h

/-- `get_watermarked`, web/src/watermarking_process.rs:46-48. -/
def Js.getWatermarked (p : Nat) : Js Nat := fun h =>
  match h.process? p with
  | none => (none, h)
  | some o => Js.wrap o.watermarked h

/-- A method with `&mut self` of `WatermarkingProcess`, web/src/watermarking_process.rs:34-36, 42-44, 50-52. -/
def Js.updateProcess (p : Nat) (f : ProcessObject → ProcessObject) : Js Unit := fun h =>
  match h.process? p with
  | none => (none, h)
  | some o => (some (), { h with processes := h.processes.set p (some (f o)) })

/-- `set_source_format`, web/src/watermarking_process.rs:34-36. -/
def Js.setFormat (p : Nat) (format : String) : Js Unit := Js.updateProcess p fun o => { o with sourceFormat := format }

/-- `set_source`, web/src/watermarking_process.rs:42-44. -/
def Js.setSource (p source : Nat) : Js Unit := do
  match ← Js.moveImage source with
  | some s => Js.updateProcess p fun o => { o with source := s }
  | none => Js.throw

/-- `set_watermarked`, web/src/watermarking_process.rs:50-52. -/
def Js.setWatermarked (p watermarked : Nat) : Js Unit := do
  match ← Js.moveImage watermarked with
  | some w => Js.updateProcess p fun o => { o with watermarked := w }
  | none => Js.throw

/-- `get_image_model`, web/src/lib.rs:39-57: a new array for the samples. -/
def Js.imageModel (m : ImageModel) : Js ImageObject := do
  let data ← Js.newArray m.data
  return ⟨m.width, m.height, data⟩

section
variable {F : Type} [FloatOps F]

/-- `get_watermarking_process` as seen by JavaScript, web/src/lib.rs:17-37; a panic is an exception. -/
def Js.watermarkingProcess (W : WebWorld F) (blob : List UInt8) (embeddingDepth step : F) : Js Nat :=
  match getWatermarkingProcess W blob embeddingDepth step with
  | .error _ => Js.throw
  | .ok p => do
    let source ← Js.imageModel p.source
    let watermarked ← Js.imageModel p.watermarked
    Js.wrapProcess ⟨p.sourceFormat, source, watermarked⟩

end

/-- A plain object of type `ImageModel`, src/Content/image.ts:7-11; `data` is the number of an array. -/
structure PageImage where
  width : Nat
  height : Nat
  data : Nat

/-- A plain object of type `WatermarkingProcess`, src/Content/image.ts:1-5. -/
structure PageProcess where
  sourceFormat : String
  source : PageImage
  watermarked : PageImage

/-- `toImageModel`, src/Content/utils.ts:33-39. -/
def Js.toImageModel (i : Nat) : Js PageImage := do
  let width ← Js.getWidth i
  let height ← Js.getHeight i
  let data ← Js.getData i
  let copy ← Js.slice data
  return ⟨width, height, copy⟩

/-- `toWatermarkingProcess`, src/Content/utils.ts:41-49. -/
def Js.toWatermarkingProcess (p : Nat) : Js PageProcess := do
  let format ← Js.getFormat p
  let source ← Js.getSource p
  let sourceModel ← Js.toImageModel source
  let watermarked ← Js.getWatermarked p
  let watermarkedModel ← Js.toImageModel watermarked
  return ⟨format, sourceModel, watermarkedModel⟩

/-- `getWatermarkingProcess` of the page, src/Content/Content.tsx:17-23, with `sourceBase64ToWatermarkingProcess`,
src/Content/utils.ts:59-70, on the heap (in Model/Web.lean the same function returns the values only). -/
def Js.contentProcess {F : Type} [FloatOps F] (W : WebWorld F) (url : List Char) : Js PageProcess :=
  match base64ToUInt8Array url with
  | none => Js.throw
  | some blob => do
    let p ← Js.watermarkingProcess W blob (FloatOps.ofInt 500) (FloatOps.ofInt 1)
    Js.toWatermarkingProcess p

/-- Everything JavaScript can do with these objects. web/src/{lib,image_model,watermarking_process}.rs. -/
inductive JsCall (F : Type) where
  | newArray (bytes : List UInt8)
  | store (array index : Nat) (value : UInt8)
  | slice (array : Nat)
  | imageNew (width height data : Nat)
  | getWidth (image : Nat)
  | getHeight (image : Nat)
  | getData (image : Nat)
  | setWidth (image width : Nat)
  | setHeight (image height : Nat)
  | setData (image data : Nat)
  | freeImage (image : Nat)
  | processNew (format : String) (source watermarked : Nat)
  | getFormat (process : Nat)
  | getSource (process : Nat)
  | getWatermarked (process : Nat)
  | setFormat (process : Nat) (format : String)
  | setSource (process source : Nat)
  | setWatermarked (process watermarked : Nat)
  | freeProcess (process : Nat)
  | watermarkingProcess (blob : List UInt8) (embeddingDepth step : F)

section
variable {F : Type} [FloatOps F]

/-- The heap after one call, whether or not it throws. web/src/{lib,image_model,watermarking_process}.rs. -/
def JsCall.run (W : WebWorld F) (h : JsHeap) : JsCall F → JsHeap
  | .newArray bytes => (Js.newArray bytes h).2
  | .store a k v => (Js.store a k v h).2
  | .slice a => (Js.slice a h).2
  | .imageNew w ht d => (Js.imageNew w ht d h).2
  | .getWidth i => (Js.getWidth i h).2
  | .getHeight i => (Js.getHeight i h).2
  | .getData i => (Js.getData i h).2
  | .setWidth i w => (Js.setWidth i w h).2
  | .setHeight i ht => (Js.setHeight i ht h).2
  | .setData i d => (Js.setData i d h).2
  | .freeImage i => (Js.freeImage i h).2
  | .processNew f s w => (Js.processNew f s w h).2
  | .getFormat p => (Js.getFormat p h).2
  | .getSource p => (Js.getSource p h).2
  | .getWatermarked p => (Js.getWatermarked p h).2
  | .setFormat p f => (Js.setFormat p f h).2
  | .setSource p s => (Js.setSource p s h).2
  | .setWatermarked p w => (Js.setWatermarked p w h).2
  | .freeProcess p => (Js.freeProcess p h).2
  | .watermarkingProcess blob d s => (Js.watermarkingProcess W blob d s h).2

/-- The heap after a sequence of calls. web/src/{lib,image_model,watermarking_process}.rs. -/
def JsHeap.after (W : WebWorld F) (h : JsHeap) (calls : List (JsCall F)) : JsHeap := calls.foldl (JsCall.run W) h

end

/-! ### The components that show the result -/

/-- What a canvas is given, src/Canvas/Canvas.tsx:3-7, and what the page consists of: the "Loading..." line, or the heading, the file
selector, two lines of text and two canvases. src/Content/Content.tsx:44-59; src/WatermarkingPreview/WatermarkingPreview.tsx:9-35. -/
inductive Page where
  | loading
  | result (formatLine sizeLine : String) (first second : ImageModel)

/-- `Content` and `WatermarkingPreview`, src/Content/Content.tsx:44-59 and src/WatermarkingPreview/WatermarkingPreview.tsx:9-35.
`toUpperCase` on the (ASCII) debug names of the image formats. -/
def renderPage : Option WatermarkingProcess → Page
  | none => .loading
  | some p => .result ("Format: " ++ p.sourceFormat.toUpper)
      ("Size: " ++ toString p.source.width ++ "x" ++ toString p.source.height) p.source p.watermarked

end Sia
