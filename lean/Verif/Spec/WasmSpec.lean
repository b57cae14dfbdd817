import Verif.Model.WasmObjects

/-! Specification of the objects handed to the page (C76): which calls may change which object. -/
namespace Sia

/-- The calls that change an image wrapper: its setters, `free`, and the calls that take it by value. -/
def JsCall.TouchesImage {F : Type} (i : Nat) : JsCall F → Prop
  | .setWidth i' _ => i' = i
  | .setHeight i' _ => i' = i
  | .setData i' _ => i' = i
  | .freeImage i' => i' = i
  | .processNew _ s w => s = i ∨ w = i
  | .setSource _ s => s = i
  | .setWatermarked _ w => w = i
  | _ => False

/-- The calls that change a process wrapper: its setters and `free`. -/
def JsCall.TouchesProcess {F : Type} (p : Nat) : JsCall F → Prop
  | .setFormat p' _ => p' = p
  | .setSource p' _ => p' = p
  | .setWatermarked p' _ => p' = p
  | .freeProcess p' => p' = p
  | _ => False

/-- The only way to change an array is to store into it. -/
def JsCall.TouchesArray {F : Type} (a : Nat) : JsCall F → Prop
  | .store a' _ _ => a' = a
  | _ => False

/-- All arrays referred to exist (true of the empty heap and kept by every call). -/
def JsHeap.Closed (h : JsHeap) : Prop :=
  (∀ i o, h.image? i = some o → o.data < h.arrays.length) ∧
    ∀ p o, h.process? p = some o → o.source.data < h.arrays.length ∧ o.watermarked.data < h.arrays.length

/-- The values a page object stands for in a heap. -/
def PageImage.Shows (m : PageImage) (h : JsHeap) (v : ImageModel) : Prop :=
  m.width = v.width ∧ m.height = v.height ∧ h.arrays[m.data]? = some v.data

/-- The values a page object stands for in a heap. -/
def PageProcess.Shows (r : PageProcess) (h : JsHeap) (v : WatermarkingProcess) : Prop :=
  r.sourceFormat = v.sourceFormat ∧ r.source.Shows h v.source ∧ r.watermarked.Shows h v.watermarked

end Sia
