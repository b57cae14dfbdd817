import Verif.Props.StdoutProps
import Verif.Props.CliExamples

/-! Concrete cases of C77 and C78. -/
namespace Sia

/-- C77: the test channel is marked with all fifteen lines. -/
example : labels (Logged.watermarkChannel Deps.toyReal testChannel 100 3000 11 3).lines = markLabels ++ markCodeLabels := by
  obtain ⟨out, h, _⟩ := testChannel_authenticates
  rw [(mark_log_prefix Deps.toyReal testChannel 100 3000 11 3).2 out (by rw [log_watermarkChannel, h])]
  have hw : testChannel.width = 512 := rfl
  have hh : testChannel.height = 512 := rfl
  rw [hw, hh, if_pos (by decide)]

/-- C77: and it prints the numbers of its domain of 64 x 64 cells: 512 bytes, a code with 1024 of 2048 bits, one word of data. -/
example : ∃ fs q p sig data, (Logged.watermarkChannel Deps.toyReal testChannel 100 3000 11 3).lines =
    recordLines 11 fs q p sig data ++ [.capacity 512, .data data, .serialized (dataRecord data), .toBeEncoded (frame (dataRecord data)),
      .binaryLength 704, .code 1024 2048, .wordsToEncode 1] ∧ data.length = 84 := by
  obtain ⟨out, h, _⟩ := testChannel_authenticates
  obtain ⟨fs, q, p, data, h1, h2, h3, h4⟩ := mark_log Deps.toyReal testChannel out 100 3000 11 3 (by rw [log_watermarkChannel, h])
  have hlen : data.length = 84 := by
    rw [watermark_serialize_length _ _ h3]
    dsimp only
    rw [Deps.toyReal.ed.sign_length, (threeBitQuantization_lengths _ _ _ _ h2).2, (equalizedFeatures_length _ _ _ _ h1).2.1]
    decide
  refine ⟨fs, q, p, Deps.toyReal.ed.sign (builtinSecret ++ builtinPublic) (vecI64ToBytes q), data, ?_, hlen⟩
  rw [h4, List.append_cancel_left_eq]
  have hw : testChannel.width = 512 := rfl
  have hh : testChannel.height = 512 := rfl
  have hrl : (dataRecord data).length = 86 := by unfold dataRecord; simp [hlen]
  have hcap : 512 / 2 ^ 3 * (512 / 2 ^ 3) / 8 = 512 := by decide
  have hd : dataBytes 512 = 128 := by decide
  have hb : blockBytes 512 = 256 := by decide
  unfold embedLines blockCount
  rw [hw, hh, hcap, if_pos (by decide), hlen, hrl, hd, hb]
  norm_num

/-- C77: the record printed when the test channel is marked is printed again when the marked channel, or anything within two grey
levels of it, is authenticated. -/
example : ∃ out w data, (Logged.watermarkChannel Deps.toyReal testChannel 100 3000 11 3).result = .ok out ∧
    [LogLine.watermark w, .watermarkData data] <:+: (Logged.watermarkChannel Deps.toyReal testChannel 100 3000 11 3).lines ∧
    ∀ noisy : GrayImage, noisy.IsSquare 512 → WithinNoise 512 2 out.pixels noisy.pixels → ∀ a', 1 ≤ a' →
      [LogLine.extracted data, .deserializedWatermark w] <:+: (Logged.authenticateChannel Deps.toyReal noisy 100 3000 a' 3).lines := by
  obtain ⟨out, h, _⟩ := testChannel_authenticates
  obtain ⟨fs, q, p, data, h1, h2, _⟩ := mark_log Deps.toyReal testChannel out 100 3000 11 3 (by rw [log_watermarkChannel, h])
  exact record_reappears Deps.toyReal Ldpc.toy_decodesClean (Ed25519.toy_keyPair _ _ rfl rfl) testChannel 512 3 11 100 3000 2
    testChannel_square testChannel_geometry testChannel_signal (by decide) (by decide) (by decide) (by decide) fs h1 q p h2

/-- C77: a picture higher than wide prints one line and fails. -/
example : (Logged.watermarkChannel Deps.toyReal ⟨1, 2, [7, 9]⟩ 100 1 2 3).lines = [.momentIndices [1, 3]] :=
  (mark_log_stage Deps.toyReal ⟨1, 2, [7, 9]⟩ 100 1 2 3).2.1 rfl (by decide) (by decide)

/-- C78: two pictures, and a standard output that fails at the first, the second or any later line before the end: the tool stops, and
each output is there completely or not at all. -/
example (clock : Nat → Nat × Nat) : ∃ v, ∀ room < 28, ∃ k, 13 * k ≤ room ∧
    (∀ r ∈ [(("out/a-wm.png".toList : List Char), [1, v]), ("out/b-wm.png".toList, [1, v])].take k,
      toyWorld.after (fun _ => some [7]) (Effect.writes (Effect.until room (processInputsEffects toyWorld "wm".toList (some "out".toList) clock
        (fun _ => some [7]) ["in/a.png".toList, "in/b.png".toList])).1) r.1 = some r.2) := by
  obtain ⟨v, hv⟩ := toyWorld_clean
  refine ⟨v, fun room hroom => ?_⟩
  obtain ⟨k, _, h2, h3, _⟩ := closed_output_leaves_whole_files toyWorld _ _ _ _ _ hv clock room (by
    exact Nat.lt_of_lt_of_le hroom (outputs_of_batch toyWorld _ _ _ clock _ (batch_completes toyWorld _ _ _ _ _ hv).1))
  exact ⟨k, h2, h3⟩

end Sia
