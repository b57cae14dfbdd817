import Verif.Spec.LogSpec
import Verif.Props.PipelineProps
import Verif.Props.CliReportProps

/-! C77: what the library prints. -/
namespace Sia

section
variable {F : Type}

@[simp] theorem logged_pure_result {α : Type} (a : α) : (pure a : Logged F α).result = .ok a := rfl
@[simp] theorem logged_pure_lines {α : Type} (a : α) : (pure a : Logged F α).lines = [] := rfl
@[simp] theorem say_result (l : LogLine F) : (Logged.say l).result = .ok () := rfl
@[simp] theorem say_lines (l : LogLine F) : (Logged.say l).lines = [l] := rfl
@[simp] theorem silent_result {α : Type} (r : Res α) : (Logged.silent r : Logged F α).result = r := rfl
@[simp] theorem silent_lines {α : Type} (r : Res α) : (Logged.silent r : Logged F α).lines = [] := rfl

@[simp] theorem logged_bind_result {α β : Type} (x : Logged F α) (f : α → Logged F β) :
    (x >>= f).result = x.result >>= fun a => (f a).result := by
  change (match x.result with
    | .ok a => (⟨x.lines ++ (f a).lines, (f a).result⟩ : Logged F β)
    | .error e => ⟨x.lines, .error e⟩).result = _
  cases x.result <;> rfl

theorem logged_bind_lines {α β : Type} (x : Logged F α) (f : α → Logged F β) :
    (x >>= f).lines = x.lines ++ match x.result with | .ok a => (f a).lines | .error _ => [] := by
  change (match x.result with
    | .ok a => (⟨x.lines ++ (f a).lines, (f a).result⟩ : Logged F β)
    | .error e => ⟨x.lines, .error e⟩).lines = _
  cases x.result with
  | ok a => rfl
  | error e => exact (List.append_nil _).symm

theorem say_bind {β : Type} (l : LogLine F) (f : Unit → Logged F β) : Logged.say l >>= f = ⟨l :: (f ()).lines, (f ()).result⟩ := rfl

theorem silent_bind_ok {α β : Type} (a : α) (f : α → Logged F β) : (Logged.silent (.ok a) : Logged F α) >>= f = f a := rfl

theorem silent_bind_error {α β : Type} (e : Panic) (f : α → Logged F β) :
    (Logged.silent (.error e) : Logged F α) >>= f = ⟨[], .error e⟩ := rfl

end

section
variable {F : Type} [FloatOps F]

/-! ### The output changes no result -/

omit [FloatOps F] in
theorem ok_bind' {α β : Type} (x : α) (f : α → Res β) : ((Except.ok x : Res α) >>= f) = f x := rfl

omit [FloatOps F] in
theorem res_bind_ok {α : Type} (x : Res α) : (x >>= fun a => Except.ok a) = x := by cases x <;> rfl

theorem log_channelFeatures (D : Deps F) (image : Mat UInt8) (a : Nat) :
    (Logged.channelFeatures D image a).result = channelFeatures D image a := by
  unfold Logged.channelFeatures channelFeatures
  cases orderByFeaturesAmount a with
  | error e => rfl
  | ok order =>
    simp only [logged_bind_result, silent_result, say_result, logged_pure_result]
    change ((momentIndices order).mapM _ >>= fun moments => Except.ok moments) = (momentIndices order).mapM _
    exact res_bind_ok _

theorem log_equalizedFeatures (D : Deps F) (c : GrayImage) (a : Nat) :
    (Logged.equalizedFeatures D c a).result = equalizedFeatures D c a := by
  unfold Logged.equalizedFeatures equalizedFeatures
  simp only [logged_bind_result, silent_result, say_result, logged_pure_result, log_channelFeatures]
  cases fromShapeVec c.width c.height (D.equalize c) with
  | error e => rfl
  | ok m => exact res_bind_ok _

theorem log_getDomainCapacity (w h : Nat) : (Logged.getDomainCapacity w h : Logged F Nat).result = getDomainCapacity w h := by
  unfold Logged.getDomainCapacity getDomainCapacity
  simp only [logged_bind_result, say_result]
  cases getCodeForEncode (getCapacity w h) <;> rfl

theorem log_dataSerialize (bytes : List UInt8) : (Logged.dataSerialize bytes : Logged F _).result = dataSerialize bytes := by
  unfold Logged.dataSerialize
  simp only [logged_bind_result, say_result, silent_result, logged_pure_result]
  exact res_bind_ok _

theorem log_dataDeserialize (bytes : List UInt8) : (Logged.dataDeserialize bytes : Logged F _).result = dataDeserialize bytes := by
  unfold Logged.dataDeserialize dataDeserialize
  simp only [logged_bind_result, say_result]
  by_cases h : bytes.length < 3
  · simp only [if_pos h]; rfl
  · simp only [if_neg h, pure_bind, ok_bind', logged_bind_result, silent_result, logged_pure_result]
    cases slice bytes 0 2 with
    | error e => rfl
    | ok lb =>
      simp only [ok_bind']
      cases vecU16FromBytes lb with
      | error e => rfl
      | ok ls =>
        simp only [ok_bind']
        cases ls[0]? with
        | none => rfl
        | some n =>
          simp only [logged_bind_result, say_result, silent_result, logged_pure_result, ok_bind']
          exact res_bind_ok _

theorem log_encode (L : Ldpc) (input : List UInt8) (n : Nat) : (Logged.encode L input n : Logged F _).result = .ok (encode L input n) := by
  unfold Logged.encode encode
  simp only [logged_bind_result, say_result]
  cases getCodeByCodewordLength n <;> rfl

theorem log_decode (L : Ldpc) (bytes : List UInt8) (n : Nat) : (Logged.decode L bytes n : Logged F _).result = decode L bytes n := by
  unfold Logged.decode decode
  simp only [logged_bind_result, say_result]
  cases getCodeByCodewordLength n with
  | none => rfl
  | some code =>
    simp only [logged_bind_result, say_result, silent_result, ok_bind']
    congr 1
    funext words
    cases words.flatten[0]? <;> cases words.flatten[1]? <;> rfl

theorem log_embed (L : Ldpc) (image : Mat UInt8) (bytes : List UInt8) (depth : F) (levels : Nat) :
    (Logged.embed L image bytes depth levels).result = embed L image bytes depth levels := by
  unfold Logged.embed embed
  simp only [logged_bind_result, silent_result]
  congr 1
  funext coefficients
  by_cases h : 31 ≤ levels
  · simp only [if_pos h]; rfl
  · simp only [if_neg h, logged_bind_result, silent_result, log_getDomainCapacity, log_dataSerialize, log_encode, logged_pure_result,
      ok_bind']
    rfl

theorem log_extract (L : Ldpc) (image : Mat UInt8) (depth : F) (levels : Nat) :
    (Logged.extract L image depth levels).result = extract L image depth levels := by
  unfold Logged.extract extract
  simp only [logged_bind_result, silent_result]
  congr 1
  funext coefficients
  by_cases h : 31 ≤ levels
  · simp only [if_pos h]; rfl
  · simp only [if_neg h, logged_bind_result, silent_result, log_getDomainCapacity, log_decode, log_dataDeserialize, logged_pure_result,
      ok_bind']

/-- C77: printing changes no result of `watermark_channel`. -/
theorem log_watermarkChannel (D : Deps F) (c : GrayImage) (depth step : F) (a levels : Nat) :
    (Logged.watermarkChannel D c depth step a levels).result = watermarkChannel D c depth step a levels := by
  unfold Logged.watermarkChannel watermarkChannel
  simp only [logged_bind_result, silent_result, log_equalizedFeatures]
  congr 1; funext pixels
  congr 1; funext features
  congr 1; funext qp
  cases qp
  simp only [logged_bind_result, silent_result, say_result, log_embed]
  rfl

/-- C77: printing changes no result of `authenticate_channel`. -/
theorem log_authenticateChannel (D : Deps F) (c : GrayImage) (depth step : F) (a levels : Nat) :
    (Logged.authenticateChannel D c depth step a levels).result = authenticateChannel D c depth step a levels := by
  unfold Logged.authenticateChannel authenticateChannel
  simp only [logged_bind_result, silent_result, say_result, log_equalizedFeatures, log_extract]
  rfl

/-- C77: printing changes no result of `watermark`. -/
theorem log_watermark (D : Deps F) (image : DynamicImage) (depth step : F) (a : Nat) :
    (Logged.watermarkImage D image depth step a).result = watermark D image depth step a := by
  unfold Logged.watermarkImage watermark
  simp only [logged_bind_result, log_watermarkChannel]
  congr 1; funext red
  by_cases h : image.color.hasColor
  · simp only [if_pos h, logged_bind_result, log_watermarkChannel]; rfl
  · simp only [if_neg h]; rfl

end
end Sia
