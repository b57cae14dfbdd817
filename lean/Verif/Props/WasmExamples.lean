import Verif.Props.WasmProps
import Verif.Props.WebExamples

/-! Concrete cases of C76. -/
namespace Sia

/-- A history: an array, two images around it, a process of both, and a copy of its source whose width is changed. -/
def wasmHistory : List (JsCall ℝ) :=
  [.newArray [1, 2, 3, 4], .imageNew 1 1 0, .imageNew (2 ^ 32 + 1) 1 0, .processNew "Png" 0 1, .getSource 0, .setWidth 2 7]

/-- The heap after it: the two wrappers given away are empty, the copy has the new width, the process has its own. -/
theorem wasmHistory_heap : (⟨[], [], []⟩ : JsHeap).after toyWeb wasmHistory =
    ⟨[[1, 2, 3, 4]], [none, none, some ⟨7, 1, 0⟩], [some ⟨"Png", ⟨1, 1, 0⟩, ⟨1, 1, 0⟩⟩]⟩ := rfl

/-- `image_kept`, `set_width_get`: the copy's width survives whatever happens to the process. -/
example : (Js.getWidth 2 ((⟨[], [], []⟩ : JsHeap).after toyWeb (wasmHistory ++ [.getSource 0, .setWidth 3 9, .freeProcess 0]))).1 =
    some 7 := by
  rw [JsHeap.after, List.foldl_append]
  exact (set_width_get toyWeb ((⟨[], [], []⟩ : JsHeap).after toyWeb (wasmHistory.take 5)) 2 7 ⟨1, 1, 0⟩ rfl
    [.getSource 0, .setWidth 3 9, .freeProcess 0] (by simp [JsCall.TouchesImage])).2.1

/-- `process_kept`, `get_source_fresh`: the process still has its own width. -/
example : ∃ i h1, Js.getSource 0 ((⟨[], [], []⟩ : JsHeap).after toyWeb wasmHistory) = (some i, h1) ∧ (Js.getWidth i h1).1 = some 1 := by
  rw [wasmHistory_heap]
  obtain ⟨i, h1, e, _, hi, _⟩ := get_source_fresh toyWeb _ 0 ⟨"Png", ⟨1, 1, 0⟩, ⟨1, 1, 0⟩⟩
    (show JsHeap.process? ⟨[[1, 2, 3, 4]], [none, none, some ⟨7, 1, 0⟩], [some ⟨"Png", ⟨1, 1, 0⟩, ⟨1, 1, 0⟩⟩]⟩ 0 = _ from rfl) []
    (by simp)
  exact ⟨i, h1, e, by simp [Js.getWidth, hi]⟩

/-- `moved_forever`: the wrapper given to the process throws. -/
example : (Js.getWidth 0 ((⟨[], [], []⟩ : JsHeap).after toyWeb wasmHistory)).1 = none :=
  (moved_forever toyWeb (wasmHistory.drop 4) ((⟨[], [], []⟩ : JsHeap).after toyWeb (wasmHistory.take 4)) 0 (by decide) rfl).1

/-- `process_new`: a process of one wrapper twice throws; of two wrappers it does not. -/
example : (Js.processNew "Png" 0 0 ⟨[[]], [some ⟨1, 1, 0⟩, some ⟨1, 1, 0⟩], []⟩).1 = none ∧
    (Js.processNew "Png" 0 1 ⟨[[]], [some ⟨1, 1, 0⟩, some ⟨1, 1, 0⟩], []⟩).1 = some 0 := ⟨rfl, rfl⟩

/-- `page_record_always`, `bytes_shared`: the record made from that process keeps its bytes although the process's own bytes change. -/
example : ∃ r h', Js.toWatermarkingProcess 0 ((⟨[], [], []⟩ : JsHeap).after toyWeb wasmHistory) = (some r, h') ∧
    r.Shows (h'.after toyWeb [.store 0 0 9, .freeProcess 0]) ⟨"Png", ⟨1, 1, [1, 2, 3, 4]⟩, ⟨1, 1, [1, 2, 3, 4]⟩⟩ ∧
    (h'.after toyWeb [.store 0 0 9, .freeProcess 0]).arrays[0]? = some [9, 2, 3, 4] := by
  rw [wasmHistory_heap]
  exact ⟨⟨"Png", ⟨1, 1, 1⟩, ⟨1, 1, 2⟩⟩, _, rfl, ⟨rfl, ⟨rfl, rfl, rfl⟩, rfl, rfl, rfl⟩, rfl⟩

/-- `page_process`: the page's record of a PNG file, on a heap with a history. -/
example : ∃ v r h', contentProcess toyWeb (fileToBase64 "image/png".toList [137, 80]) = some v ∧ v.sourceFormat = "Png" ∧
    Js.contentProcess toyWeb (fileToBase64 "image/png".toList [137, 80]) ((⟨[], [], []⟩ : JsHeap).after toyWeb wasmHistory) =
      (some r, h') ∧ r.Shows h' v := by
  obtain ⟨v, h1, h2⟩ := toyWeb_process "image/png".toList [137, 80] png_plain (by decide) (by simp)
  obtain ⟨r, h', h3, h4⟩ := (page_process toyWeb ((⟨[], [], []⟩ : JsHeap).after toyWeb wasmHistory) _).2 v h1
  exact ⟨v, r, h', h1, by simpa using h2, h3, h4 [] (by simp)⟩

/-- `page_text`: the page of that file. -/
example : ∃ first second, renderPage (contentProcess toyWeb (fileToBase64 "image/png".toList [137, 80])) =
    .result "Format: PNG" "Size: 512x512" first second := by
  obtain ⟨v, h1, h2⟩ := toyWeb_process "image/png".toList [137, 80] png_plain (by decide) (by simp)
  change contentProcess toyWeb (fileToBase64 "image/png".toList [137, 80]) = some v at h1
  rcases page_text toyWeb (fileToBase64 "image/png".toList [137, 80]) with ⟨hn, _⟩ | ⟨blob, format, image, out, first, second, k1, k2, k3, _, k5, _⟩
  · rw [hn] at h1; cases h1
  · have hb : blob = [137, 80] := by
      have := (file_decoded "image/png".toList [137, 80] [137, 80] (by decide)).2 ⟨png_plain, rfl⟩
      rw [this] at k1
      exact (Option.some_inj.1 k1).symm
    subst hb
    have hf : format = "Png" := (Option.some_inj.1 k2).symm
    have hi : testImage = image := Option.some_inj.1 k3
    subst hf
    have hw : image.width = 512 := by rw [← hi]; rfl
    have hh : image.height = 512 := by rw [← hi]; rfl
    refine ⟨first, second, ?_⟩
    rw [k5, hw, hh]
    have e1 : "Format: " ++ "Png".toUpper = "Format: PNG" := by
      apply String.ext
      rw [String.toList_append]
      unfold String.toUpper
      rw [String.toList_map]
      decide
    have e2 : "Size: " ++ toString 512 ++ "x" ++ toString 512 = "Size: 512x512" := by decide
    rw [e1, e2]

end Sia
