import Verif.Props.LogProps
import Verif.Props.EmbedProps

/-! C77: the lines a call prints, in order, with their values. -/
namespace Sia

section
variable {F : Type}

theorem bind_lines_ok {α β : Type} (x : Logged F α) (f : α → Logged F β) (a : α) (h : x.result = .ok a) :
    (x >>= f).lines = x.lines ++ (f a).lines := by rw [logged_bind_lines, h]

theorem bind_lines_error {α β : Type} (x : Logged F α) (f : α → Logged F β) (e : Panic) (h : x.result = .error e) :
    (x >>= f).lines = x.lines := by rw [logged_bind_lines, h, List.append_nil]

theorem bind_lines_prefix {α β : Type} (x : Logged F α) (f : α → Logged F β) : x.lines <+: (x >>= f).lines := by
  rw [logged_bind_lines]; exact List.prefix_append _ _

theorem say_bind_lines {β : Type} (l : LogLine F) (f : Unit → Logged F β) : (Logged.say l >>= f).lines = l :: (f ()).lines := rfl

end

section
variable {F : Type} [FloatOps F]

theorem orderByFeaturesAmount_ok (a : Nat) (ha : 1 ≤ a) : orderByFeaturesAmount a = .ok (1 + 2 * (a - 1)) := by
  unfold orderByFeaturesAmount; rw [if_neg (by omega)]

/-- C77: the lines of the features: the indices 1, 3, .., 2a-1 always, the moments twice if they could be computed. -/
theorem feature_lines (D : Deps F) (c : GrayImage) (a : Nat) (hraw : c.raw.length = c.width * c.height) (ha : 1 ≤ a) :
    (Logged.equalizedFeatures D c a).lines = .momentIndices (oddNumbers a) ::
      match equalizedFeatures D c a with
      | .ok fs => [.moments fs, .features fs]
      | .error _ => [] := by
  have hm : ∃ m, fromShapeVec c.width c.height (D.equalize c) = .ok m := by
    unfold fromShapeVec
    rw [if_pos (by rw [D.equalize_length, hraw])]
    exact ⟨_, rfl⟩
  obtain ⟨m, hm⟩ := hm
  have he : equalizedFeatures D c a = channelFeatures D m a := by
    unfold equalizedFeatures; rw [hm]; rfl
  have hl : (Logged.channelFeatures D m a).lines = .momentIndices (oddNumbers a) ::
      match channelFeatures D m a with | .ok fs => [.moments fs] | .error _ => [] := by
    unfold Logged.channelFeatures channelFeatures
    rw [orderByFeaturesAmount_ok a ha, silent_bind_ok, say_bind_lines, logged_bind_lines]
    simp only [silent_result, silent_lines, ok_bind', List.nil_append, momentIndices_odd a ha]
    congr 1
    generalize hx : ((List.range a).map fun k => 2 * k + 1).mapM (fun index =>
      if m.rows * m.rows < m.rows * m.cols then (.error .unwrapNone : Res F) else .ok (D.momentAbs (1 + 2 * (a - 1)) index m)) = x
    cases x with
    | error e => rfl
    | ok fs => rfl
  unfold Logged.equalizedFeatures
  rw [hm, silent_bind_ok, he]
  have hr := log_channelFeatures D m a
  cases hcf : channelFeatures D m a with
  | error e => rw [bind_lines_error _ _ e (by rw [hr, hcf]), hl, hcf]
  | ok fs => rw [bind_lines_ok _ _ fs (by rw [hr, hcf]), hl, hcf]; rfl

/-- C77: without a valid channel or without features to compute, nothing is printed. -/
theorem feature_lines_none (D : Deps F) (c : GrayImage) (a : Nat) (h : c.raw.length ≠ c.width * c.height ∨ a = 0) :
    (Logged.equalizedFeatures D c a).lines = [] ∧ ∃ e, equalizedFeatures D c a = .error e := by
  unfold Logged.equalizedFeatures equalizedFeatures
  by_cases hraw : c.raw.length = c.width * c.height
  · have ha : a = 0 := by tauto
    subst ha
    have hm : ∃ m, fromShapeVec c.width c.height (D.equalize c) = .ok m := by
      unfold fromShapeVec
      rw [if_pos (by rw [D.equalize_length, hraw])]
      exact ⟨_, rfl⟩
    obtain ⟨m, hm⟩ := hm
    rw [hm]
    exact ⟨rfl, _, rfl⟩
  · unfold fromShapeVec
    rw [if_neg (by rw [D.equalize_length]; exact hraw)]
    exact ⟨rfl, _, rfl⟩

omit [FloatOps F] in
theorem encode_lines (L : Ldpc) (input : List UInt8) (cap : Nat) (hl : input.length ≤ 65535) :
    (Logged.encode L input cap : Logged F _).lines =
      [.toBeEncoded (frame input), .binaryLength (8 * (input.length + 2))] ++
        if SupportedCapacity cap then [.code (8 * dataBytes cap) (8 * blockBytes cap), .wordsToEncode (blockCount cap input)] else [] := by
  have hb : [(u16ToBytes (input.length % 65536)).1, (u16ToBytes (input.length % 65536)).2] ++ input = frame input := by
    rw [Nat.mod_eq_of_lt (by omega)]; rfl
  have hfl : (frame input).length = input.length + 2 := by unfold frame; simp
  unfold Logged.encode
  simp only [hb, hfl]
  rw [say_bind_lines, say_bind_lines]
  by_cases h : SupportedCapacity cap
  · obtain ⟨hk, hn, _, h8⟩ := codeAt_sizes cap
    rw [codeAt_spec cap h, if_pos h]
    dsimp only
    rw [say_bind_lines, say_bind_lines, logged_pure_lines, hk, hn, Nat.mul_div_cancel_left _ (by omega : 0 < 8), chunks_length (by omega), hfl]
    rfl
  · rw [unsupported_spec cap h, if_neg h]
    rfl

theorem getCodeForEncode_none (cap : Nat) : getCodeForEncode cap = none ↔ cap < 9 := by
  unfold getCodeForEncode
  split_ifs <;> simp <;> omega

/-- C77: embedding prints nothing if the picture cannot be transformed. -/
theorem embed_lines_none (L : Ldpc) (image : Mat UInt8) (bytes : List UInt8) (depth : F) (levels : Nat)
    (h : (∃ e, dwt2d (image.map (pixelToFloat (F := F))) levels false = .error e) ∨ 31 ≤ levels) :
    (Logged.embed L image bytes depth levels).lines = [] := by
  unfold Logged.embed
  cases hd : dwt2d (image.map (pixelToFloat (F := F))) levels false with
  | error e => rfl
  | ok c =>
    have hl : 31 ≤ levels := by
      rcases h with ⟨e, he⟩ | h
      · rw [hd] at he; cases he
      · exact h
    rw [silent_bind_ok, if_pos hl]; rfl

/-- C77: the lines of embedding in a picture that can be transformed. -/
theorem embed_lines (L : Ldpc) (image : Mat UInt8) (bytes : List UInt8) (depth : F) (levels : Nat) (hb : bytes.length ≤ 65533)
    (c : Mat F) (hd : dwt2d (image.map (pixelToFloat (F := F))) levels false = .ok c) (hl : levels < 31) :
    (Logged.embed L image bytes depth levels).lines =
      if image.rows / 2 ^ levels * (image.cols / 2 ^ levels) / 8 < 9 then
        [.capacity (image.rows / 2 ^ levels * (image.cols / 2 ^ levels) / 8)]
      else embedLines (image.rows / 2 ^ levels * (image.cols / 2 ^ levels) / 8) bytes := by
  unfold Logged.embed
  rw [hd, silent_bind_ok, if_neg (by omega)]
  obtain ⟨hr, hc⟩ := dwt2d_dims _ _ _ _ hd
  change (Logged.getDomainCapacity (c.rows / 2 ^ levels) (c.cols / 2 ^ levels) >>= _).lines = _
  rw [hr, hc]
  change (Logged.getDomainCapacity (image.rows / 2 ^ levels) (image.cols / 2 ^ levels) >>= _).lines = _
  have hg := log_getDomainCapacity (F := F) (image.rows / 2 ^ levels) (image.cols / 2 ^ levels)
  have hgl : (Logged.getDomainCapacity (image.rows / 2 ^ levels) (image.cols / 2 ^ levels) : Logged F Nat).lines =
      [.capacity (image.rows / 2 ^ levels * (image.cols / 2 ^ levels) / 8)] := by
    unfold Logged.getDomainCapacity
    rw [say_bind_lines]
    cases getCodeForEncode (getCapacity (image.rows / 2 ^ levels) (image.cols / 2 ^ levels)) <;> rfl
  unfold getDomainCapacity at hg
  dsimp only at hg
  change _ = (match getCodeForEncode (image.rows / 2 ^ levels * (image.cols / 2 ^ levels) / 8) with
    | none => _ | some _ => _) at hg
  by_cases h9 : image.rows / 2 ^ levels * (image.cols / 2 ^ levels) / 8 < 9
  · rw [(getCodeForEncode_none _).mpr h9] at hg
    rw [bind_lines_error _ _ _ hg, hgl, if_pos h9]
  · obtain ⟨k, hk⟩ : ∃ k, getCodeForEncode (image.rows / 2 ^ levels * (image.cols / 2 ^ levels) / 8) = some k := by
      cases hk : getCodeForEncode (image.rows / 2 ^ levels * (image.cols / 2 ^ levels) / 8) with
      | none => exact absurd ((getCodeForEncode_none _).mp hk) h9
      | some k => exact ⟨k, rfl⟩
    rw [hk] at hg
    rw [bind_lines_ok _ _ _ hg, hgl, if_neg h9]
    have hs : (Logged.dataSerialize bytes : Logged F _).result = .ok (dataRecord bytes) := by
      rw [log_dataSerialize]; exact (data_serialize_spec bytes).1 (by omega)
    have hsl : (Logged.dataSerialize bytes : Logged F _).lines = [.data bytes, .serialized (dataRecord bytes)] := by
      unfold Logged.dataSerialize
      rw [(data_serialize_spec bytes).1 (by omega)]; rfl
    have hrl : (dataRecord bytes).length = bytes.length + 2 := by unfold dataRecord; simp
    rw [bind_lines_ok _ _ _ hs, hsl, bind_lines_ok _ _ _ (log_encode (F := F) L _ _)]
    change _ ++ (_ ++ ((Logged.encode L (dataRecord bytes) _).lines ++ _)) = _
    rw [encode_lines L _ _ (by omega), hrl]
    unfold embedLines
    rw [show bytes.length + 2 + 2 = bytes.length + 4 by omega]
    have htail : ∀ (ll' : Res (Mat F)) (f : Mat F → Res (Mat F)), (Logged.silent ll' >>= fun ll' =>
        Logged.silent (f ll') >>= fun restored => pure (restored.map floatToPixel) : Logged F (Mat UInt8)).lines = [] := by
      intro ll' f
      cases ll' with
      | error e => rfl
      | ok m =>
        rw [silent_bind_ok]
        cases f m <;> rfl
    rw [htail _ _, List.append_nil]
    rfl

/-- The lines of a marking call in terms of its steps. -/
theorem watermarkChannel_lines (D : Deps F) (c : GrayImage) (depth step : F) (a levels : Nat)
    (hraw : c.raw.length = c.width * c.height) (fs : List F) (hf : equalizedFeatures D c a = .ok fs) :
    (Logged.watermarkChannel D c depth step a levels).lines =
      [.momentIndices (oddNumbers a), .moments fs, .features fs] ++
      match threeBitQuantization fs step with
      | .error _ => []
      | .ok (q, p) => [.quantized q, .perturbation p] ++
        if D.ed.keypairOk (builtinSecret ++ builtinPublic) then
          [.signature (D.ed.sign (builtinSecret ++ builtinPublic) (vecI64ToBytes q)),
            .watermark ⟨p, D.ed.sign (builtinSecret ++ builtinPublic) (vecI64ToBytes q), "Hello world!"⟩] ++
          match (Watermark.mk p (D.ed.sign (builtinSecret ++ builtinPublic) (vecI64ToBytes q)) "Hello world!").serialize with
          | .error _ => []
          | .ok data => .watermarkData data :: (Logged.embed D.ldpc c.pixels data depth levels).lines
        else [] := by
  unfold Logged.watermarkChannel
  have ha := (equalizedFeatures_length D c a fs hf).1
  rw [fromShapeVec_ok c hraw, silent_bind_ok, bind_lines_ok _ _ fs (by rw [log_equalizedFeatures, hf]), feature_lines D c a hraw ha, hf]
  dsimp only
  congr 1
  cases threeBitQuantization fs step with
  | error e => rfl
  | ok qp =>
    obtain ⟨q, p⟩ := qp
    rw [silent_bind_ok]
    dsimp only
    rw [say_bind_lines, say_bind_lines]
    dsimp only [List.cons_append, List.nil_append]
    congr 2
    rw [sign_builtin]
    by_cases hk : D.ed.keypairOk (builtinSecret ++ builtinPublic)
    · rw [if_pos hk, if_pos hk, silent_bind_ok, say_bind_lines, say_bind_lines]
      congr 2
      change (Logged.silent (Watermark.mk p (D.ed.sign (builtinSecret ++ builtinPublic) (vecI64ToBytes q)) "Hello world!").serialize >>= _).lines = _
      cases (Watermark.mk p (D.ed.sign (builtinSecret ++ builtinPublic) (vecI64ToBytes q)) "Hello world!").serialize with
      | error e => rfl
      | ok data =>
        rw [silent_bind_ok, say_bind_lines]
        congr 1
        rw [logged_bind_lines]
        cases (Logged.embed D.ldpc c.pixels data depth levels).result with
        | error e => exact List.append_nil _
        | ok m => exact List.append_nil _
    · rw [if_neg hk, if_neg hk]; rfl

/-- The number of bytes the LL corner of a channel can hold. -/
theorem pixels_dims (c : GrayImage) : c.pixels.rows = c.width ∧ c.pixels.cols = c.height := ⟨rfl, rfl⟩

theorem record_length (D : Deps F) (c : GrayImage) (step : F) (a : Nat) (fs : List F) (hf : equalizedFeatures D c a = .ok fs) (q : List Int)
    (p : List Bool) (hq : threeBitQuantization fs step = .ok (q, p)) (data : List UInt8)
    (hs : (Watermark.mk p (D.ed.sign (builtinSecret ++ builtinPublic) (vecI64ToBytes q)) "Hello world!").serialize = .ok data) :
    data.length ≤ 65533 := by
  have h1 := watermark_serialize_length _ _ hs
  have h2 := (watermark_serialize_iff _).mp ⟨_, hs⟩
  obtain ⟨h3, h4, h5⟩ := h2
  omega

/-- C77: what a marking call that succeeds prints. -/
theorem mark_log (D : Deps F) (c out : GrayImage) (depth step : F) (a levels : Nat)
    (h : (Logged.watermarkChannel D c depth step a levels).result = .ok out) :
    ∃ fs q p data, equalizedFeatures D c a = .ok fs ∧ threeBitQuantization fs step = .ok (q, p) ∧
      (Watermark.mk p (D.ed.sign (builtinSecret ++ builtinPublic) (vecI64ToBytes q)) "Hello world!").serialize = .ok data ∧
      (Logged.watermarkChannel D c depth step a levels).lines =
        recordLines a fs q p (D.ed.sign (builtinSecret ++ builtinPublic) (vecI64ToBytes q)) data ++
        embedLines (c.width / 2 ^ levels * (c.height / 2 ^ levels) / 8) data := by
  rw [log_watermarkChannel] at h
  by_cases hraw : c.raw.length = c.width * c.height
  swap
  · unfold watermarkChannel fromShapeVec at h
    rw [if_neg hraw] at h
    cases h
  unfold watermarkChannel at h
  rw [fromShapeVec_ok c hraw] at h
  cases hf : equalizedFeatures D c a with
  | error e => rw [hf] at h; cases h
  | ok fs =>
    have hlines := watermarkChannel_lines D c depth step a levels hraw fs hf
    rw [hf] at h
    simp only [ok_bind'] at h
    cases hq : threeBitQuantization fs step with
    | error e => rw [hq] at h; cases h
    | ok qp =>
      obtain ⟨q, p⟩ := qp
      rw [hq] at h hlines
      simp only [ok_bind'] at h
      rw [sign_builtin] at h
      by_cases hk : D.ed.keypairOk (builtinSecret ++ builtinPublic)
      swap
      · rw [if_neg hk] at h; cases h
      rw [if_pos hk] at h
      simp only [ok_bind'] at h
      dsimp only at hlines
      rw [if_pos hk] at hlines
      change ((Watermark.mk p (D.ed.sign (builtinSecret ++ builtinPublic) (vecI64ToBytes q)) "Hello world!").serialize >>= _) = _ at h
      cases hs : (Watermark.mk p (D.ed.sign (builtinSecret ++ builtinPublic) (vecI64ToBytes q)) "Hello world!").serialize with
      | error e => rw [hs] at h; cases h
      | ok data =>
        rw [hs] at h hlines
        refine ⟨fs, q, p, data, rfl, hq, hs, ?_⟩
        rw [hlines]
        simp only [ok_bind'] at h
        cases he : embed D.ldpc c.pixels data depth levels with
        | error e => rw [he] at h; cases h
        | ok m =>
          unfold embed at he
          cases hd : dwt2d (c.pixels.map (pixelToFloat (F := F))) levels false with
          | error e => rw [hd] at he; cases he
          | ok co =>
            rw [hd] at he
            simp only [ok_bind'] at he
            by_cases hl : 31 ≤ levels
            · rw [if_pos hl] at he; cases he
            rw [if_neg hl] at he
            obtain ⟨hr, hc⟩ := dwt2d_dims _ _ _ _ hd
            change (getDomainCapacity (co.rows / 2 ^ levels) (co.cols / 2 ^ levels) >>= _) = _ at he
            rw [hr, hc] at he
            have hlow : ¬ c.width / 2 ^ levels * (c.height / 2 ^ levels) / 8 < 9 := by
              intro h9
              have hg : getDomainCapacity (c.width / 2 ^ levels) (c.height / 2 ^ levels) = .error .capacityBelowMinimum := by
                unfold getDomainCapacity
                dsimp only
                have := (getCodeForEncode_none (getCapacity (c.width / 2 ^ levels) (c.height / 2 ^ levels))).mpr h9
                rw [this]
              change (getDomainCapacity (c.width / 2 ^ levels) (c.height / 2 ^ levels) >>= _) = _ at he
              rw [hg] at he
              cases he
            dsimp only
            rw [embed_lines D.ldpc c.pixels data depth levels (record_length D c step a fs hf q p hq data hs) co hd (by omega)]
            rw [if_neg (by exact hlow)]
            rfl

theorem hello_size : ("Hello world!" : String).utf8ByteSize ≤ 255 := by decide

theorem equalizedFeatures_tall (D : Deps F) (c : GrayImage) (a : Nat) (hraw : c.raw.length = c.width * c.height)
    (h : c.width * c.width < c.width * c.height) : ∃ e, equalizedFeatures D c a = .error e := by
  unfold equalizedFeatures fromShapeVec
  rw [if_pos (by rw [D.equalize_length, hraw])]
  exact channelFeatures_error D _ a (Or.inr h)

/-- C77: how far a marking call that does not succeed has come can be read off its output: nothing if the channel is malformed or no
features were asked for, one line if the features cannot be computed, three if a feature has no cell, five if the key is refused, seven if
there are too many features for a record, eight if the picture cannot be transformed, nine if its domain is too small. -/
theorem mark_log_stage (D : Deps F) (c : GrayImage) (depth step : F) (a levels : Nat) :
    (c.raw.length ≠ c.width * c.height ∨ a = 0 → (Logged.watermarkChannel D c depth step a levels).lines = []) ∧
    (c.raw.length = c.width * c.height → 1 ≤ a → c.width * c.width < c.width * c.height →
      (Logged.watermarkChannel D c depth step a levels).lines = [.momentIndices (oddNumbers a)]) ∧
    (c.raw.length = c.width * c.height → ∀ fs, equalizedFeatures D c a = .ok fs →
      (∀ e, threeBitQuantization fs step = .error e →
        (Logged.watermarkChannel D c depth step a levels).lines = [.momentIndices (oddNumbers a), .moments fs, .features fs]) ∧
      ∀ q p, threeBitQuantization fs step = .ok (q, p) →
        (D.ed.keypairOk (builtinSecret ++ builtinPublic) = false → (Logged.watermarkChannel D c depth step a levels).lines =
          [.momentIndices (oddNumbers a), .moments fs, .features fs, .quantized q, .perturbation p]) ∧
        (D.ed.keypairOk (builtinSecret ++ builtinPublic) = true → 
          (85 < a → (Logged.watermarkChannel D c depth step a levels).lines =
            (recordLines a fs q p (D.ed.sign (builtinSecret ++ builtinPublic) (vecI64ToBytes q)) []).take 7) ∧
          (a ≤ 85 → ∃ data, (Watermark.mk p (D.ed.sign (builtinSecret ++ builtinPublic) (vecI64ToBytes q)) "Hello world!").serialize = .ok data ∧
            (Logged.watermarkChannel D c depth step a levels).lines =
              recordLines a fs q p (D.ed.sign (builtinSecret ++ builtinPublic) (vecI64ToBytes q)) data ++
              (Logged.embed D.ldpc c.pixels data depth levels).lines ∧
            ((∀ co, dwt2d (c.pixels.map (pixelToFloat (F := F))) levels false ≠ .ok co) ∨ 31 ≤ levels →
              (Logged.embed D.ldpc c.pixels data depth levels).lines = []) ∧
            ((∃ co, dwt2d (c.pixels.map (pixelToFloat (F := F))) levels false = .ok co) → levels < 31 →
              (Logged.embed D.ldpc c.pixels data depth levels).lines =
                if c.width / 2 ^ levels * (c.height / 2 ^ levels) / 8 < 9 then
                  [.capacity (c.width / 2 ^ levels * (c.height / 2 ^ levels) / 8)]
                else embedLines (c.width / 2 ^ levels * (c.height / 2 ^ levels) / 8) data)))) := by
  refine ⟨?_, ?_, ?_⟩
  · intro h
    unfold Logged.watermarkChannel
    by_cases hraw : c.raw.length = c.width * c.height
    · obtain ⟨h1, e, h2⟩ := feature_lines_none D c a h
      rw [fromShapeVec_ok c hraw, silent_bind_ok, bind_lines_error _ _ e (by rw [log_equalizedFeatures, h2]), h1]
    · unfold fromShapeVec
      rw [if_neg hraw]; rfl
  · intro hraw ha htall
    obtain ⟨e, he⟩ := equalizedFeatures_tall D c a hraw htall
    unfold Logged.watermarkChannel
    rw [fromShapeVec_ok c hraw, silent_bind_ok, bind_lines_error _ _ e (by rw [log_equalizedFeatures, he]), feature_lines D c a hraw ha, he]
  · intro hraw fs hf
    have hl := watermarkChannel_lines D c depth step a levels hraw fs hf
    obtain ⟨ha, hfl, _⟩ := equalizedFeatures_length D c a fs hf
    refine ⟨fun e he => by rw [hl, he]; rfl, fun q p hq => ?_⟩
    rw [hq] at hl
    dsimp only at hl
    obtain ⟨_, hpl⟩ := threeBitQuantization_lengths fs step q p hq
    refine ⟨fun hk => by rw [hl, if_neg (by rw [hk]; decide)]; rfl, fun hk => ?_⟩
    rw [if_pos hk] at hl
    constructor
    · intro h85
      have hs : ∃ e, (Watermark.mk p (D.ed.sign (builtinSecret ++ builtinPublic) (vecI64ToBytes q)) "Hello world!").serialize = .error e := by
        cases hs : (Watermark.mk p (D.ed.sign (builtinSecret ++ builtinPublic) (vecI64ToBytes q)) "Hello world!").serialize with
        | error e => exact ⟨e, rfl⟩
        | ok d =>
          have := ((watermark_serialize_iff _).mp ⟨_, hs⟩).1
          dsimp only at this
          omega
      obtain ⟨e, hs⟩ := hs
      rw [hl, hs]; rfl
    · intro h85
      obtain ⟨data, hs⟩ := (watermark_serialize_iff (Watermark.mk p (D.ed.sign (builtinSecret ++ builtinPublic) (vecI64ToBytes q))
        "Hello world!")).mpr ⟨by dsimp only; omega, by dsimp only; rw [D.ed.sign_length]; omega, hello_size⟩
      rw [hs] at hl
      refine ⟨data, hs, by rw [hl]; rfl, ?_, ?_⟩
      · intro hno
        apply embed_lines_none
        rcases hno with h | h
        · left
          cases hd : dwt2d (c.pixels.map (pixelToFloat (F := F))) levels false with
          | error e => exact ⟨e, rfl⟩
          | ok co => exact absurd hd (h co)
        · exact Or.inr h
      · rintro ⟨co, hd⟩ hlev
        exact embed_lines D.ldpc c.pixels data depth levels (record_length D c step a fs hf q p hq data hs) co hd hlev

omit [FloatOps F] in
theorem embedLines_labels (cap : Nat) (data : List UInt8) : labels (embedLines cap data : List (LogLine F)) =
    markLabels.drop 8 ++ if SupportedCapacity cap then markCodeLabels else [] := by
  unfold embedLines labels
  by_cases h : SupportedCapacity cap
  · rw [if_pos h, if_pos h]; rfl
  · rw [if_neg h, if_neg h]; rfl

/-- C77: whatever happens, the labels of a marking call are the first of one fixed list; a call that succeeds prints all of them. -/
theorem mark_log_prefix (D : Deps F) (c : GrayImage) (depth step : F) (a levels : Nat) :
    labels (Logged.watermarkChannel D c depth step a levels).lines <+:
      markLabels ++ (if SupportedCapacity (c.width / 2 ^ levels * (c.height / 2 ^ levels) / 8) then markCodeLabels else []) ∧
    ∀ out, (Logged.watermarkChannel D c depth step a levels).result = .ok out →
      labels (Logged.watermarkChannel D c depth step a levels).lines =
        markLabels ++ (if SupportedCapacity (c.width / 2 ^ levels * (c.height / 2 ^ levels) / 8) then markCodeLabels else []) := by
  constructor
  · obtain ⟨h1, h2, h3⟩ := mark_log_stage D c depth step a levels
    by_cases hbad : c.raw.length ≠ c.width * c.height ∨ a = 0
    · rw [h1 hbad]; exact List.nil_prefix
    push Not at hbad
    obtain ⟨hraw, ha⟩ := hbad
    have key : ∀ (l : List String), l <+: markLabels → l <+: markLabels ++
        (if SupportedCapacity (c.width / 2 ^ levels * (c.height / 2 ^ levels) / 8) then markCodeLabels else []) :=
      fun l hl => hl.trans (List.prefix_append _ _)
    by_cases htall : c.width * c.width < c.width * c.height
    · rw [h2 hraw (by omega) htall]
      exact key _ ⟨markLabels.drop 1, rfl⟩
    cases hf : equalizedFeatures D c a with
    | error e =>
      unfold equalizedFeatures fromShapeVec at hf
      rw [if_pos (by rw [D.equalize_length, hraw])] at hf
      simp only [ok_bind'] at hf
      rw [channelFeatures_eq D _ a (by omega) htall] at hf
      cases hf
    | ok fs =>
      obtain ⟨h4, h5⟩ := h3 hraw fs hf
      cases hq : threeBitQuantization fs step with
      | error e => rw [h4 e hq]; exact key _ (by exact ⟨markLabels.drop 3, rfl⟩)
      | ok qp =>
        obtain ⟨q, p⟩ := qp
        obtain ⟨h6, h7⟩ := h5 q p hq
        cases hk : D.ed.keypairOk (builtinSecret ++ builtinPublic) with
        | false => rw [h6 hk]; exact key _ (by exact ⟨markLabels.drop 5, rfl⟩)
        | true =>
          obtain ⟨h8, h9⟩ := h7 hk
          by_cases h85 : 85 < a
          · rw [h8 h85]; exact key _ (by exact ⟨markLabels.drop 7, rfl⟩)
          · obtain ⟨data, _, h10, h11, h12⟩ := h9 (by omega)
            rw [h10]
            unfold labels at *
            rw [List.map_append]
            have hrl : (recordLines a fs q p (D.ed.sign (builtinSecret ++ builtinPublic) (vecI64ToBytes q)) data).map LogLine.label =
              markLabels.take 8 := rfl
            rw [hrl]
            by_cases hd : ∃ co, dwt2d (c.pixels.map (pixelToFloat (F := F))) levels false = .ok co
            · by_cases hl : levels < 31
              · rw [h12 hd hl]
                split
                · exact key _ ⟨markLabels.drop 9, rfl⟩
                · have := embedLines_labels (F := F) (c.width / 2 ^ levels * (c.height / 2 ^ levels) / 8) data
                  unfold labels at this
                  rw [this, ← List.append_assoc, List.take_append_drop]
              · rw [h11 (Or.inr (by omega))]; exact key _ ⟨markLabels.drop 8, rfl⟩
            · rw [h11 (Or.inl fun co hco => hd ⟨co, hco⟩)]; exact key _ ⟨markLabels.drop 8, rfl⟩
  · intro out h
    obtain ⟨fs, q, p, data, _, _, _, hl⟩ := mark_log D c out depth step a levels h
    have := embedLines_labels (F := F) (c.width / 2 ^ levels * (c.height / 2 ^ levels) / 8) data
    rw [hl]
    unfold labels at *
    rw [List.map_append, this]
    rfl

/-! ### Authentication -/

/-- The labels of a computation are the first of a list, and all of it if it succeeds. -/
def Follows {α : Type} (x : Logged F α) (full : List String) : Prop :=
  labels x.lines <+: full ∧ ∀ a, x.result = .ok a → labels x.lines = full

omit [FloatOps F] in
theorem follows_bind {α β : Type} (x : Logged F α) (f : α → Logged F β) (A B : List String) (hx : Follows x A)
    (hf : ∀ a, x.result = .ok a → Follows (f a) B) : Follows (x >>= f) (A ++ B) := by
  cases hr : x.result with
  | error e =>
    refine ⟨by rw [bind_lines_error _ _ e hr]; exact hx.1.trans (List.prefix_append _ _), ?_⟩
    intro b hb
    rw [logged_bind_result, hr] at hb
    cases hb
  | ok a =>
    have hl : labels (x >>= f).lines = A ++ labels (f a).lines := by
      rw [bind_lines_ok _ _ a hr, ← hx.2 a hr]
      unfold labels; rw [List.map_append]
    refine ⟨by rw [hl]; exact (List.prefix_append_right_inj _).mpr (hf a hr).1, ?_⟩
    intro b hb
    rw [logged_bind_result, hr] at hb
    rw [hl, (hf a hr).2 b hb]

omit [FloatOps F] in
theorem follows_silent {α : Type} (r : Res α) : Follows (Logged.silent r : Logged F α) [] := ⟨List.nil_prefix, fun _ _ => rfl⟩

omit [FloatOps F] in
theorem follows_pure {α : Type} (a : α) : Follows (pure a : Logged F α) [] := ⟨List.nil_prefix, fun _ _ => rfl⟩

omit [FloatOps F] in
theorem follows_say (l : LogLine F) : Follows (Logged.say l) [l.label] := ⟨List.prefix_refl _, fun _ _ => rfl⟩

omit [FloatOps F] in
theorem follows_error {α : Type} (e : Panic) (A : List String) : Follows (Logged.silent (.error e) : Logged F α) A :=
  ⟨List.nil_prefix, fun _ h => by cases h⟩

theorem follows_features (D : Deps F) (c : GrayImage) (a : Nat) : Follows (Logged.equalizedFeatures D c a) (authLabels.take 3) := by
  by_cases hbad : c.raw.length ≠ c.width * c.height ∨ a = 0
  · obtain ⟨h1, e, h2⟩ := feature_lines_none D c a hbad
    exact ⟨by rw [h1]; exact List.nil_prefix, fun b hb => by rw [log_equalizedFeatures, h2] at hb; cases hb⟩
  · push Not at hbad
    have hl := feature_lines D c a hbad.1 (by omega)
    cases hf : equalizedFeatures D c a with
    | error e =>
      rw [hf] at hl
      exact ⟨by rw [hl]; exact ⟨authLabels.drop 1 |>.take 2, rfl⟩, fun b hb => by rw [log_equalizedFeatures, hf] at hb; cases hb⟩
    | ok fs =>
      rw [hf] at hl
      exact ⟨by rw [hl]; exact ⟨[], rfl⟩, fun b hb => by rw [hl]; rfl⟩

omit [FloatOps F] in
theorem follows_capacity (w h : Nat) : Follows (Logged.getDomainCapacity w h : Logged F Nat) ["domain capacity: "] := by
  unfold Logged.getDomainCapacity
  refine follows_bind _ _ _ [] (follows_say _) fun _ _ => ?_
  cases getCodeForEncode (getCapacity w h) with
  | none => exact follows_error _ _
  | some k => exact follows_pure _

omit [FloatOps F] in
theorem follows_decode (L : Ldpc) (bytes : List UInt8) (cap : Nat) : Follows (Logged.decode L bytes cap : Logged F _)
    (["bits length: "] ++ if SupportedCapacity cap then authCodeLabels else []) := by
  unfold Logged.decode
  refine follows_bind _ _ _ _ (follows_say _) fun _ _ => ?_
  by_cases h : SupportedCapacity cap
  · rw [codeAt_spec cap h, if_pos h]
    dsimp only
    refine follows_bind _ _ ["use LDPC code: ("] (authCodeLabels.drop 1) (follows_say _) fun _ _ => ?_
    refine follows_bind _ _ ["codewords to be decoded: "] (authCodeLabels.drop 2) (follows_say _) fun _ _ => ?_
    refine follows_bind _ _ [] (authCodeLabels.drop 2) (follows_silent _) fun words _ => ?_
    cases words.flatten[0]? with
    | none => exact follows_error _ _
    | some b1 =>
      cases words.flatten[1]? with
      | none => exact follows_error _ _
      | some b2 => exact follows_bind _ _ ["expected data bytes length: "] [] (follows_say _) fun _ _ => follows_silent _
  · rw [unsupported_spec cap h, if_neg h]
    exact follows_pure _

omit [FloatOps F] in
theorem follows_dataDeserialize (bytes : List UInt8) : Follows (Logged.dataDeserialize bytes : Logged F _) (authLabels'.take 4) := by
  unfold Logged.dataDeserialize
  refine follows_bind _ _ ["serialized data bytes: "] ((authLabels'.take 4).drop 1) (follows_say _) fun _ _ => ?_
  by_cases h : bytes.length < 3
  · rw [if_pos h]; exact follows_bind _ _ ((authLabels'.take 4).drop 1) [] (follows_error _ _) fun _ h => by cases h
  · rw [if_neg h]
    refine follows_bind _ _ [] ((authLabels'.take 4).drop 1) (follows_silent _) fun lb _ => ?_
    refine follows_bind _ _ [] ((authLabels'.take 4).drop 1) (follows_silent _) fun ls _ => ?_
    cases ls[0]? with
    | none => exact follows_error _ _
    | some n =>
      refine follows_bind _ _ ["data length: "] ((authLabels'.take 4).drop 2) (follows_say _) fun _ _ => ?_
      refine follows_bind _ _ ["data bytes: ("] ((authLabels'.take 4).drop 3) (follows_say _) fun _ _ => ?_
      refine follows_bind _ _ [] ((authLabels'.take 4).drop 3) (follows_silent _) fun _ _ => ?_
      exact follows_bind _ _ ["deserialized data: "] [] (follows_say _) fun _ _ => follows_pure _

theorem follows_extract (L : Ldpc) (image : Mat UInt8) (depth : F) (levels : Nat) : Follows (Logged.extract L image depth levels)
    (["domain capacity: ", "bits length: "] ++
      (if SupportedCapacity (image.rows / 2 ^ levels * (image.cols / 2 ^ levels) / 8) then authCodeLabels else []) ++ authLabels'.take 4) := by
  unfold Logged.extract
  refine follows_bind _ _ [] _ (follows_silent _) fun c hd => ?_
  obtain ⟨hr, hc⟩ := dwt2d_dims _ _ _ _ hd
  by_cases hl : 31 ≤ levels
  · rw [if_pos hl]
    have := follows_bind (Logged.silent (.error .arithOverflow) : Logged F PUnit) (fun _ => do
      let extracted ← Logged.silent (read (lowLow c levels) depth)
      let capacity ← Logged.getDomainCapacity (lowLow c levels).rows (lowLow c levels).cols
      let decoded ← Logged.decode L extracted capacity
      Logged.dataDeserialize decoded) (["domain capacity: ", "bits length: "] ++
      (if SupportedCapacity (image.rows / 2 ^ levels * (image.cols / 2 ^ levels) / 8) then authCodeLabels else []) ++ authLabels'.take 4) []
      (follows_error _ _) (fun _ h => by cases h)
    rw [List.append_nil] at this
    exact this
  · rw [if_neg hl]
    refine follows_bind _ _ [] _ (follows_silent _) fun extracted _ => ?_
    refine follows_bind _ _ ["domain capacity: "] _ (follows_capacity _ _) fun cap hcap => ?_
    rw [log_getDomainCapacity] at hcap
    have hcap' : cap = image.rows / 2 ^ levels * (image.cols / 2 ^ levels) / 8 := by
      unfold getDomainCapacity at hcap
      change (match getCodeForEncode (c.rows / 2 ^ levels * (c.cols / 2 ^ levels) / 8) with
        | none => (.error .capacityBelowMinimum : Res Nat) | some _ => .ok (c.rows / 2 ^ levels * (c.cols / 2 ^ levels) / 8)) = .ok cap at hcap
      rw [hr, hc] at hcap
      split at hcap
      · cases hcap
      · cases hcap; rfl
    subst hcap'
    exact follows_bind _ _ (["bits length: "] ++ _) _ (follows_decode L extracted _) fun _ _ => follows_dataDeserialize _

/-- C77: whatever happens, the labels of an authentication are the first of one fixed list; one that gives a verdict prints all of them. -/
theorem auth_log_prefix (D : Deps F) (c : GrayImage) (depth step : F) (a levels : Nat) :
    labels (Logged.authenticateChannel D c depth step a levels).lines <+:
      authLabels ++ (if SupportedCapacity (c.width / 2 ^ levels * (c.height / 2 ^ levels) / 8) then authCodeLabels else []) ++ authLabels' ∧
    ∀ verdict, (Logged.authenticateChannel D c depth step a levels).result = .ok verdict →
      labels (Logged.authenticateChannel D c depth step a levels).lines =
        authLabels ++ (if SupportedCapacity (c.width / 2 ^ levels * (c.height / 2 ^ levels) / 8) then authCodeLabels else []) ++ authLabels' := by
  change Follows (Logged.authenticateChannel D c depth step a levels) _
  unfold Logged.authenticateChannel
  by_cases hraw : c.raw.length = c.width * c.height
  swap
  · unfold fromShapeVec
    rw [if_neg hraw]
    exact ⟨List.nil_prefix, fun _ h => by cases h⟩
  rw [fromShapeVec_ok c hraw, silent_bind_ok]
  have e : authLabels ++ (if SupportedCapacity (c.width / 2 ^ levels * (c.height / 2 ^ levels) / 8) then authCodeLabels else []) ++ authLabels' =
      authLabels.take 3 ++ ((["domain capacity: ", "bits length: "] ++
      (if SupportedCapacity (c.width / 2 ^ levels * (c.height / 2 ^ levels) / 8) then authCodeLabels else []) ++ authLabels'.take 4) ++
      authLabels'.drop 4) := by
    by_cases h : SupportedCapacity (c.width / 2 ^ levels * (c.height / 2 ^ levels) / 8)
    · rw [if_pos h]; rfl
    · rw [if_neg h]; rfl
  rw [e]
  refine follows_bind _ _ _ _ (follows_features D c a) fun fs _ => ?_
  refine follows_bind _ _ _ _ (follows_extract D.ldpc c.pixels depth levels) fun data _ => ?_
  refine follows_bind _ _ ["extracted watermark data: "] _ (follows_say _) fun _ _ => ?_
  refine follows_bind _ _ [] _ (follows_silent _) fun w _ => ?_
  refine follows_bind _ _ ["deserialized watermark data: "] _ (follows_say _) fun _ _ => ?_
  refine follows_bind _ _ [] _ (follows_silent _) fun q _ => ?_
  refine follows_bind _ _ ["restored quantized features: "] _ (follows_say _) fun _ _ => ?_
  exact follows_bind _ _ ["restored quantized features bytes: "] [] (follows_say _) fun _ _ => follows_silent _

/-- C77: the output of an authentication does not depend on the signature library: with any other key or any other outcome of the check
the same lines are printed, so the verdict cannot be read off them. -/
theorem auth_log_without_verdict (D : Deps F) (E : Ed25519) (c : GrayImage) (depth step : F) (a levels : Nat) :
    (Logged.authenticateChannel { D with ed := E } c depth step a levels).lines =
      (Logged.authenticateChannel D c depth step a levels).lines := by
  unfold Logged.authenticateChannel
  have hfe : Logged.equalizedFeatures { D with ed := E } c a = Logged.equalizedFeatures D c a := rfl
  rw [hfe]
  rw [logged_bind_lines, logged_bind_lines]
  cases (Logged.silent (fromShapeVec c.width c.height c.raw) : Logged F _).result with
  | error e => rfl
  | ok pixels =>
    dsimp only
    rw [logged_bind_lines, logged_bind_lines]
    cases (Logged.equalizedFeatures D c a).result with
    | error e => rfl
    | ok fs =>
      dsimp only
      rw [logged_bind_lines, logged_bind_lines]
      cases (Logged.extract D.ldpc pixels depth levels).result with
      | error e => rfl
      | ok data =>
        dsimp only
        rw [say_bind_lines, say_bind_lines]
        cases deserializeWatermark data with
        | error e => rfl
        | ok w =>
          rw [silent_bind_ok, silent_bind_ok, say_bind_lines, say_bind_lines]
          cases threeBitDequantization fs w.perturbationVector step with
          | error e => rfl
          | ok q => rfl

omit [FloatOps F] in
theorem decode_lines (L : Ldpc) (bytes decoded : List UInt8) (cap : Nat) (h : decode L bytes cap = .ok decoded) :
    (Logged.decode L bytes cap : Logged F _).lines = [.bitsLength (8 * bytes.length)] ++
      (if SupportedCapacity cap then [.code (8 * dataBytes cap) (8 * blockBytes cap),
        .wordsToDecode ((bytes.length + blockBytes cap - 1) / blockBytes cap), .expectedLength decoded.length] else []) := by
  unfold Logged.decode
  unfold decode at h
  rw [say_bind_lines]
  by_cases hs : SupportedCapacity cap
  · obtain ⟨hk, hn, _, h8⟩ := codeAt_sizes cap
    have hb : 0 < blockBytes cap := by unfold blockBytes; omega
    rw [codeAt_spec cap hs] at h ⊢
    rw [if_pos hs]
    dsimp only at h ⊢
    rw [say_bind_lines, say_bind_lines]
    simp only [hn, hk, Nat.mul_div_cancel_left _ (show 0 < 8 by omega)] at h ⊢
    rw [chunks_length hb]
    dsimp only [List.cons_append, List.nil_append]
    congr 3
    cases hw : (chunks (blockBytes cap) bytes).mapM (fun w =>
        if w.length = blockBytes cap then slice (L.decode (codeAt cap) w) 0 (dataBytes cap) else (.error .ldpcBlockLength : Res (List UInt8))) with
    | error e => rw [hw] at h; cases h
    | ok words =>
      rw [hw] at h
      simp only [ok_bind'] at h
      rw [silent_bind_ok]
      cases h0 : words.flatten[0]? with
      | none => rw [h0] at h; cases h
      | some b1 =>
        cases h1 : words.flatten[1]? with
        | none => rw [h0, h1] at h; cases h
        | some b2 =>
          rw [h0, h1] at h
          dsimp only at h ⊢
          rw [say_bind_lines, silent_lines]
          obtain ⟨_, hle, rfl⟩ := (slice_ok_iff _ _ _ _).mp h
          rw [List.length_take, List.length_drop]
          congr 2
          omega
  · rw [unsupported_spec cap hs, if_neg hs]; rfl

omit [FloatOps F] in
theorem dataDeserialize_lines (bytes data : List UInt8) (h : dataDeserialize bytes = .ok data) :
    (Logged.dataDeserialize bytes : Logged F _).lines =
      [.serialized bytes, .dataLength data.length, .dataRange 2 (2 + data.length), .deserialized data] := by
  unfold Logged.dataDeserialize
  unfold dataDeserialize at h
  rw [say_bind_lines]
  congr 1
  by_cases h3 : bytes.length < 3
  · rw [if_pos h3] at h; cases h
  rw [if_neg h3] at h ⊢
  cases hs : slice bytes 0 2 with
  | error e => rw [hs] at h; cases h
  | ok lb =>
    rw [hs] at h
    simp only [ok_bind'] at h
    rw [silent_bind_ok]
    cases hv : vecU16FromBytes lb with
    | error e => rw [hv] at h; cases h
    | ok ls =>
      rw [hv] at h
      simp only [ok_bind'] at h
      rw [silent_bind_ok]
      cases hl : ls[0]? with
      | none => rw [hl] at h; cases h
      | some n =>
        rw [hl] at h
        dsimp only at h ⊢
        rw [say_bind_lines, say_bind_lines]
        obtain ⟨_, hle, hd⟩ := (slice_ok_iff _ _ _ _).mp h
        have hdl : data.length = n.toNat := by rw [hd, List.length_take, List.length_drop]; omega
        rw [h, hdl]
        rfl

theorem read_length' (m : Mat F) (depth : F) (out : List UInt8) (h : read m depth = .ok out) : out.length = m.rows * m.cols / 8 := by
  unfold read at h
  have := mapM_except_length _ _ h
  rw [this, List.length_range]; rfl

/-- C77: what an extraction that succeeds prints. -/
theorem extract_lines (L : Ldpc) (image : Mat UInt8) (depth : F) (levels : Nat) (data : List UInt8)
    (h : extract L image depth levels = .ok data) :
    ∃ decoded, dataDeserialize decoded = .ok data ∧ (Logged.extract L image depth levels).lines =
      extractLines (image.rows / 2 ^ levels * (image.cols / 2 ^ levels) / 8) decoded.length decoded data := by
  unfold extract at h
  unfold Logged.extract
  cases hd : dwt2d (image.map (pixelToFloat (F := F))) levels false with
  | error e => rw [hd] at h; cases h
  | ok c =>
    rw [hd] at h
    simp only [ok_bind'] at h
    rw [silent_bind_ok]
    obtain ⟨hr, hc⟩ := dwt2d_dims _ _ _ _ hd
    by_cases hl : 31 ≤ levels
    · rw [if_pos hl] at h; cases h
    rw [if_neg hl] at h ⊢
    cases hre : read (lowLow c levels) depth with
    | error e => rw [hre] at h; cases h
    | ok received =>
      rw [hre] at h
      simp only [ok_bind'] at h
      dsimp only
      rw [hre, silent_bind_ok]
      have hrl := read_length' _ _ _ hre
      change received.length = c.rows / 2 ^ levels * (c.cols / 2 ^ levels) / 8 at hrl
      change (getDomainCapacity (c.rows / 2 ^ levels) (c.cols / 2 ^ levels) >>= _) = _ at h
      change ∃ decoded, _ ∧ (Logged.getDomainCapacity (c.rows / 2 ^ levels) (c.cols / 2 ^ levels) >>= _).lines = _
      rw [hr, hc] at *
      change received.length = image.rows / 2 ^ levels * (image.cols / 2 ^ levels) / 8 at hrl
      change (getDomainCapacity (image.rows / 2 ^ levels) (image.cols / 2 ^ levels) >>= _) = _ at h
      change ∃ decoded, _ ∧ (Logged.getDomainCapacity (image.rows / 2 ^ levels) (image.cols / 2 ^ levels) >>= _).lines = _
      cases hg : getDomainCapacity (image.rows / 2 ^ levels) (image.cols / 2 ^ levels) with
      | error e => rw [hg] at h; cases h
      | ok cap =>
        rw [hg] at h
        simp only [ok_bind'] at h
        have hcap : cap = image.rows / 2 ^ levels * (image.cols / 2 ^ levels) / 8 := by
          unfold getDomainCapacity at hg
          dsimp only at hg
          split at hg
          · cases hg
          · cases hg; rfl
        have hgl : (Logged.getDomainCapacity (image.rows / 2 ^ levels) (image.cols / 2 ^ levels) : Logged F Nat).lines =
            [.capacity cap] := by
          unfold Logged.getDomainCapacity
          rw [say_bind_lines, hcap]
          cases getCodeForEncode (getCapacity (image.rows / 2 ^ levels) (image.cols / 2 ^ levels)) <;> rfl
        rw [bind_lines_ok _ _ cap (by rw [log_getDomainCapacity, hg]), hgl]
        cases hde : decode L received cap with
        | error e => rw [hde] at h; cases h
        | ok decoded =>
          rw [hde] at h
          simp only [ok_bind'] at h
          refine ⟨decoded, h, ?_⟩
          rw [bind_lines_ok _ _ decoded (by rw [log_decode, hde]), decode_lines L received decoded cap hde, dataDeserialize_lines decoded data h,
            hrl, ← hcap]
          unfold extractLines
          simp only [List.cons_append, List.nil_append, List.append_assoc]

/-- C77: what an authentication that gives a verdict prints. -/
theorem auth_log (D : Deps F) (c : GrayImage) (depth step : F) (a levels : Nat) (verdict : Bool)
    (h : (Logged.authenticateChannel D c depth step a levels).result = .ok verdict) :
    ∃ fs decoded data w q, equalizedFeatures D c a = .ok fs ∧ extract D.ldpc c.pixels depth levels = .ok data ∧
      dataDeserialize decoded = .ok data ∧ deserializeWatermark data = .ok w ∧
      threeBitDequantization fs w.perturbationVector step = .ok q ∧
      (Logged.authenticateChannel D c depth step a levels).lines =
        [.momentIndices (oddNumbers a), .moments fs, .features fs] ++
        extractLines (c.width / 2 ^ levels * (c.height / 2 ^ levels) / 8) decoded.length decoded data ++
        [.extracted data, .deserializedWatermark w, .restored q, .restoredBytes (vecI64ToBytes q)] := by
  rw [log_authenticateChannel, authenticate_iff] at h
  obtain ⟨hraw, fs, data, w, q, hf, hx, hw, hq, _⟩ := h
  obtain ⟨decoded, hdd, hl⟩ := extract_lines D.ldpc c.pixels depth levels data hx
  refine ⟨fs, decoded, data, w, q, hf, hx, hdd, hw, hq, ?_⟩
  unfold Logged.authenticateChannel
  have ha := (equalizedFeatures_length D c a fs hf).1
  rw [fromShapeVec_ok c hraw, silent_bind_ok, bind_lines_ok _ _ fs (by rw [log_equalizedFeatures, hf]), feature_lines D c a hraw ha, hf,
    bind_lines_ok _ _ data (by rw [log_extract, hx]), hl, say_bind_lines, hw, silent_bind_ok, say_bind_lines, hq, silent_bind_ok]
  simp only [List.append_assoc]
  rfl

end

section
variable {F : Type} [FloatOps F] [LawfulFloat F]

/-- C77: the record printed when a channel is marked is the record printed when it, or anything within the noise bound of it, is
authenticated: both calls print the same `watermark` and the same bytes. -/
theorem record_reappears (D : Deps F) (hL : D.ldpc.DecodesClean) (hk : D.ed.KeyPair builtinSecret builtinPublic)
    (c : GrayImage) (n levels a : Nat) (depth step : F) (t : ℝ) (hc : c.IsSquare n)
    (hg : EmbedGeometry n levels c.pixels) (hs : SignalOK n levels c.pixels depth t)
    (hsup : SupportedCapacity (domainBytes n levels)) (hal : blockBytes (domainBytes n levels) ∣ domainBytes n levels)
    (hfit : recordBytes a + 4 ≤ domainBytes n levels / 2) (ha : a ≤ 85)
    (fs : List F) (hf : equalizedFeatures D c a = .ok fs) (q : List Int) (p : List Bool)
    (hq : threeBitQuantization fs step = .ok (q, p)) :
    ∃ out w data, (Logged.watermarkChannel D c depth step a levels).result = .ok out ∧
      [LogLine.watermark w, .watermarkData data] <:+: (Logged.watermarkChannel D c depth step a levels).lines ∧
      ∀ noisy : GrayImage, noisy.IsSquare n → WithinNoise n t out.pixels noisy.pixels → ∀ a', 1 ≤ a' →
        [LogLine.extracted data, .deserializedWatermark w] <:+: (Logged.authenticateChannel D noisy depth step a' levels).lines := by
  obtain ⟨c1, c2, c3⟩ := hc
  have hraw : c.raw.length = c.width * c.height := by rw [c1, c2, c3]
  obtain ⟨_, hq2⟩ := threeBitQuantization_lengths fs step q p hq
  obtain ⟨_, hl, _⟩ := equalizedFeatures_length D c a fs hf
  obtain ⟨record, hser, hdes, hlen, hwm⟩ := watermarkChannel_split D c depth step a levels hraw fs hf q p hq hk.keypair
    (by rw [hq2, hl]; omega)
  obtain ⟨m, he, hm, hx⟩ := extract_tolerates_noise D.ldpc hL n levels c.pixels record depth t hg hs hsup hal
    (by rw [hlen]; unfold recordBytes; omega) (by rw [hlen]; unfold recordBytes; omega) (by rw [hlen]; exact hfit)
  obtain ⟨r1, r2, r3⟩ := fromRaw_toList m n hm
  have hres : (Logged.watermarkChannel D c depth step a levels).result = .ok ⟨n, n, m.toList⟩ := by
    rw [log_watermarkChannel, hwm, he, c1, c2]; exact r1
  refine ⟨⟨n, n, m.toList⟩, ⟨p, D.ed.sign (builtinSecret ++ builtinPublic) (vecI64ToBytes q), watermarkText⟩, record, hres, ?_, ?_⟩
  · obtain ⟨fs', q', p', data', h1, h2, h3, h4⟩ := mark_log D c _ depth step a levels hres
    rw [hf] at h1; cases h1
    rw [hq] at h2; cases h2
    have : data' = record := by
      have hser' : (Watermark.mk p (D.ed.sign (builtinSecret ++ builtinPublic) (vecI64ToBytes q)) "Hello world!").serialize = .ok record := hser
      rw [hser'] at h3; cases h3; rfl
    subst this
    rw [h4]
    exact ⟨[.momentIndices (oddNumbers a), .moments fs, .features fs, .quantized q, .perturbation p,
      .signature (D.ed.sign (builtinSecret ++ builtinPublic) (vecI64ToBytes q))], embedLines _ data', rfl⟩
  · intro noisy hn hnoise a' ha'
    have hxn : extract D.ldpc noisy.pixels depth levels = .ok record := by
      apply hx
      refine ⟨⟨hn.1, hn.2.1⟩, ?_⟩
      intro i hi j hj
      have := hnoise.2 i hi j hj
      rw [r3 i hi j hj] at this
      exact this
    obtain ⟨gs, hgs, _⟩ := equalizedFeatures_square D noisy n a' hn ha'
    have hraw' : noisy.raw.length = noisy.width * noisy.height := by rw [hn.1, hn.2.1, hn.2.2]
    unfold Logged.authenticateChannel
    have hw : deserializeWatermark record = .ok ⟨p, D.ed.sign (builtinSecret ++ builtinPublic) (vecI64ToBytes q), watermarkText⟩ := by
      have := hdes []
      rwa [List.append_nil] at this
    rw [fromShapeVec_ok noisy hraw', silent_bind_ok, bind_lines_ok _ _ gs (by rw [log_equalizedFeatures, hgs]),
      bind_lines_ok _ _ record (by rw [log_extract, hxn]), say_bind_lines, hw, silent_bind_ok, say_bind_lines]
    refine ⟨(Logged.equalizedFeatures D noisy a').lines ++ (Logged.extract D.ldpc noisy.pixels depth levels).lines, ?_⟩
    refine ⟨(Logged.silent (threeBitDequantization gs p step) >>= fun q' => Logged.say (.restored q') >>= fun _ =>
      Logged.say (.restoredBytes (vecI64ToBytes q')) >>= fun _ => Logged.silent (verify D.ed (vecI64ToBytes q')
        (D.ed.sign (builtinSecret ++ builtinPublic) (vecI64ToBytes q)) publicKey) : Logged F Bool).lines, ?_⟩
    simp only [List.append_assoc]
    rfl

end

/-- C77: no line of the library can be taken for the tool's report of a marked file, whatever values are printed after the label. -/
theorem library_line_is_no_report {F : Type} (l : LogLine F) (values report : String) : l.label ++ values ≠ "Watermarked " ++ report := by
  intro h
  have h' := congrArg String.toList h
  rw [String.toList_append, String.toList_append] at h'
  have h0 := congrArg List.head? h'
  cases l <;> simp [LogLine.label] at h0

end Sia
