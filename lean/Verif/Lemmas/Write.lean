import Verif.Lemmas.Reload
import Verif.WriteSpec

/-! The outcome of writing through a buffer. -/

namespace Poppy

open Spec (handed v1Pieces v2Pieces)

theorem Sink.writeAll_some (out : List U8) (b : ℕ) (bs : List U8) :
    (bs.length ≤ b → Sink.writeAll ⟨out, some b⟩ bs = (⟨out ++ bs, some (b - bs.length)⟩, .ok ())) ∧
    (b < bs.length → (Sink.writeAll ⟨out, some b⟩ bs).2 = .err (.ioError .other)) := by
  refine ⟨fun h => ?_, fun h => ?_⟩
  · simp [Sink.writeAll, h]
  · simp [Sink.writeAll, Nat.not_le.2 h]

theorem handed_big {h n : ℕ} (hn : 8192 ≤ n) (ns : List ℕ) :
    handed h (n :: ns) = h + n + handed 0 ns := by simp [handed, hn]

theorem handed_fit {h n : ℕ} (hn : n < 8192) (hh : h + n ≤ 8192) (ns : List ℕ) :
    handed h (n :: ns) = handed (h + n) ns := by simp [handed, Nat.not_le.2 hn, hh]

theorem handed_over {h n : ℕ} (hn : n < 8192) (hh : 8192 < h + n) (ns : List ℕ) :
    handed h (n :: ns) = h + handed n ns := by simp [handed, Nat.not_le.2 hn, Nat.not_le.2 hh]

theorem BufWriter.writeChunks_result (cs : List (List U8)) : ∀ (buf out : List U8) (b : ℕ),
    buf.length ≤ bufCap →
    (BufWriter.writeChunks ⟨buf, ⟨out, some b⟩⟩ cs).2
      = if handed buf.length (cs.map List.length) ≤ b then .ok () else .err (.ioError .other) := by
  induction cs with
  | nil => intro buf out b _; simp [BufWriter.writeChunks, handed]
  | cons c cs ih =>
    intro buf out b hb
    have hcap : bufCap = 8192 := rfl
    simp only [List.map_cons]
    unfold BufWriter.writeChunks BufWriter.writeAll
    simp only
    by_cases h1 : c.length < bufCap - buf.length
    · rw [if_pos h1]
      simp only
      rw [ih _ _ _ (by rw [List.length_append]; omega), List.length_append,
        handed_fit (by omega) (by omega)]
    · rw [if_neg h1]
      by_cases h2 : bufCap - buf.length < c.length
      · rw [if_pos h2]
        unfold BufWriter.flushBuf
        simp only
        by_cases hf : buf.length ≤ b
        · rw [(Sink.writeAll_some out b buf).1 hf]
          simp only
          by_cases h3 : bufCap ≤ c.length
          · rw [if_pos h3]
            rw [handed_big h3]
            by_cases hc : c.length ≤ b - buf.length
            · rw [(Sink.writeAll_some _ _ c).1 hc]
              simp only
              rw [ih _ _ _ (by simp)]
              refine if_congr ?_ rfl rfl
              simp only [List.length_nil]
              omega
            · have := (Sink.writeAll_some (out ++ buf) _ c).2 (Nat.not_le.1 hc)
              obtain ⟨⟨s, r⟩, hs⟩ : ∃ p, Sink.writeAll ⟨out ++ buf, some (b - buf.length)⟩ c = p :=
                ⟨_, rfl⟩
              rw [hs] at this ⊢
              simp only at this
              subst this
              simp only
              rw [if_neg (by omega)]
          · rw [if_neg h3]
            simp only [List.nil_append]
            rw [ih _ _ _ (by omega), handed_over (by omega) (by omega)]
            refine if_congr ?_ rfl rfl
            omega
        · have := (Sink.writeAll_some out b buf).2 (Nat.not_le.1 hf)
          obtain ⟨⟨s, r⟩, hs⟩ : ∃ p, Sink.writeAll ⟨out, some b⟩ buf = p := ⟨_, rfl⟩
          rw [hs] at this ⊢
          simp only at this
          subst this
          simp only
          rw [if_neg]
          by_cases h4 : 8192 ≤ c.length
          · rw [handed_big h4]; omega
          · rw [handed_over (by omega) (by omega)]; omega
      · rw [if_neg h2]
        simp only
        have hbuf : c.length = bufCap - buf.length := by omega
        by_cases h3 : bufCap ≤ c.length
        · rw [if_pos h3]
          rw [handed_big h3]
          have hz : buf.length = 0 := by omega
          obtain rfl := List.length_eq_zero_iff.1 hz
          by_cases hc : c.length ≤ b
          · rw [(Sink.writeAll_some _ _ c).1 hc]
            simp only
            rw [ih _ _ _ (by simp)]
            refine if_congr ?_ rfl rfl
            simp only [List.length_nil]
            omega
          · have := (Sink.writeAll_some out b c).2 (Nat.not_le.1 hc)
            obtain ⟨⟨s, r⟩, hs⟩ : ∃ p, Sink.writeAll ⟨out, some b⟩ c = p := ⟨_, rfl⟩
            rw [hs] at this ⊢
            simp only at this
            subst this
            simp only
            rw [if_neg (by omega)]
        · rw [if_neg h3]
          simp only
          rw [ih _ _ _ (by rw [List.length_append]; omega), List.length_append,
            handed_fit (by omega) (by omega)]

theorem V1.write_result (f : V1) (out : List U8) (k : ℕ) :
    (f.write ⟨out, some k⟩).2
      = if handed 0 (v1Pieces f.bitset.length f.data.length) ≤ k then .ok ()
        else .err (.ioError .other) := by
  have h := BufWriter.writeChunks_result f.chunks [] out k (Nat.zero_le _)
  have hm : f.chunks.map List.length = v1Pieces f.bitset.length f.data.length := by
    unfold V1.chunks v1Pieces
    rw [List.replicate_add]
    have : (f.bitset.map u64ToLe).map List.length = List.replicate f.bitset.length 8 := by
      rw [List.map_map]
      exact List.eq_replicate_iff.2 ⟨by simp, by simp⟩
    rw [List.map_append, List.map_append, this]
    simp [Flags.toBytes]
  rw [hm] at h
  unfold V1.write BufWriter.new
  generalize BufWriter.writeChunks ⟨[], ⟨out, some k⟩⟩ f.chunks = p at h ⊢
  obtain ⟨w, r⟩ := p
  exact h

theorem V2.write_result (f : V2) (out : List U8) (k : ℕ) :
    (f.write ⟨out, some k⟩).2
      = if handed 0 (v2Pieces f.indexCache.asSlice.length f.buckets.length f.data.length) ≤ k
        then .ok () else .err (.ioError .other) := by
  have h := BufWriter.writeChunks_result f.chunks [] out k (Nat.zero_le _)
  have hm : f.chunks.map List.length
      = v2Pieces f.indexCache.asSlice.length f.buckets.length f.data.length := by
    unfold V2.chunks v2Pieces
    have : (f.buckets.map BitSet.asSlice).map List.length
        = List.replicate f.buckets.length 4096 := by
      rw [List.map_map]
      exact List.eq_replicate_iff.2 ⟨by simp, fun x hx => by
        obtain ⟨b, _, rfl⟩ := List.mem_map.1 hx
        exact BitSet.length_asSlice b⟩
    rw [List.map_append, List.map_append, this]
    simp [Flags.toBytes]
  rw [hm] at h
  unfold V2.write BufWriter.new
  generalize BufWriter.writeChunks ⟨[], ⟨out, some k⟩⟩ f.chunks = p at h ⊢
  obtain ⟨w, r⟩ := p
  exact h

end Poppy
