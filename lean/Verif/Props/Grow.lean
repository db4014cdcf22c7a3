import Verif.Lemmas.Grow
import Verif.Props.Constructor
import Verif.Props.Creation
import Verif.Props.Serial

/-! # Asking for more never gives a smaller filter (C122) -/

namespace Poppy

/-- From the probabilities to their logarithms. -/
theorem Wish.Exceeds.ln {lm : Libm} (ls : lm.LnSpec) {big small : Wish} (h : big.Exceeds small)
    (hin : fppInRange big.fpp = true) : fppInRange small.fpp = true ∧
      FVal.le (lm.ln (FVal.ofBits big.fpp)) (lm.ln (FVal.ofBits small.fpp)) = true := by
  have hs : fppInRange small.fpp = true := by
    unfold fppInRange at hin ⊢
    rw [Bool.and_eq_true] at hin ⊢
    exact ⟨FVal.le_trans hin.1 h.fpp, by rw [ofBits_one]; exact h.fpp_le⟩
  refine ⟨hs, ?_⟩
  obtain ⟨q, e, q0, q1, qF⟩ := ofBits_of_inRange hs
  obtain ⟨q', e', q0', q1', qF'⟩ := ofBits_of_inRange hin
  have hle := h.fpp
  rw [e, e'] at hle ⊢
  exact ls.mono _ _ qF' qF (le_trans (by positivity) q0') (by simpa [FVal.le] using hle) q1

theorem Wish.grant_mono {env : Env} (sp : env.libm.Spec) {v : U8} {big small : Wish} {f' : Bloom}
    (hin : fppInRange small.fpp = true)
    (hc : small.capacity.toNat ≤ big.capacity.toNat) (ho : small.opt.rank ≤ big.opt.rank)
    (hl : FVal.le (env.libm.ln (FVal.ofBits big.fpp)) (env.libm.ln (FVal.ofBits small.fpp)) = true)
    (hw : v = 1 ∨ small.opt.rank = 0 ∨ env.debug = true ∨
      (small.capacity.toNat ≤ 2 ^ 63 → big.capacity.toNat ≤ 2 ^ 63))
    (h : big.grant env v = .ok f') :
    ∃ f, small.grant env v = .ok f ∧ f.file.length ≤ f'.file.length := by
  unfold Wish.grant Bloom.withVersionCapacityOpt at h ⊢
  by_cases h1 : v = 1#8
  · rw [if_pos h1] at h ⊢
    cases e : V1.withCapacity env big.capacity big.fpp with
    | err x => rw [e] at h; simp [Res.map] at h
    | panic => rw [e] at h; simp [Res.map] at h
    | ok b' =>
      rw [e] at h
      cases h
      obtain ⟨b, hb, hlen, hd⟩ := V1.withCapacity_mono sp hin hc hl e
      refine ⟨.v1 b, by rw [hb]; rfl, ?_⟩
      have l := (C23_v1_layout b).2
      have l' := (C23_v1_layout b').2
      rw [V1.file_eq] at l l'
      rw [Bloom.file_eq, Bloom.file_eq]
      show b.ser.length ≤ b'.ser.length
      rw [l, l', hd, List.length_nil]
      omega
  · rw [if_neg h1] at h ⊢
    by_cases h2 : v = 2#8
    · rw [if_pos h2] at h ⊢
      cases e : V2.make env big.capacity big.fpp big.opt with
      | err x => rw [e] at h; simp [Res.map] at h
      | panic => rw [e] at h; simp [Res.map] at h
      | ok b' =>
        rw [e] at h
        cases h
        obtain ⟨b, hb, hlen, hcl, hv, hv', hd⟩ :=
          V2.make_mono sp hin hc hl ho (hw.resolve_left h1) e
        refine ⟨.v2 b, by rw [hb]; rfl, ?_⟩
        have l := (C23_v2_layout b hv).2
        have l' := (C23_v2_layout b' hv').2
        rw [V2.file_eq] at l l'
        rw [Bloom.file_eq, Bloom.file_eq]
        show b.ser.length ≤ b'.ser.length
        rw [l, l', hd, List.length_nil]
        omega
    · rw [if_neg h2] at h
      simp at h

theorem Wish.grant_inRange {env : Env} {v : U8} {w : Wish} {f : Bloom}
    (h : w.grant env v = .ok f) : fppInRange w.fpp = true := by
  unfold Wish.grant Bloom.withVersionCapacityOpt at h
  split at h
  · cases e : V1.withCapacity env w.capacity w.fpp with
    | err x => rw [e] at h; simp [Res.map] at h
    | panic => rw [e] at h; simp [Res.map] at h
    | ok b => exact (V1.withCapacity_ok e).1
  · split at h
    · cases e : V2.make env w.capacity w.fpp w.opt with
      | err x => rw [e] at h; simp [Res.map] at h
      | panic => rw [e] at h; simp [Res.map] at h
      | ok b => exact (V2.make_ok e).1
    · simp at h

/-- If a filter can be created, so can the filter for fewer entries, a larger probability and a
level that asks for less, and its file is not longer.  Missing: in release builds, version 2
with an index cache for at most 2^63 entries against one for more, where the claim is false
(`C122_violated`). -/
theorem C122_partial {env : Env} (sp : env.libm.Spec) (ls : env.libm.LnSpec) {v : U8}
    {big small : Wish} {f' : Bloom} (h : big.Exceeds small)
    (hw : v = 1 ∨ small.opt.rank = 0 ∨ env.debug = true ∨
      (small.capacity.toNat ≤ 2 ^ 63 → big.capacity.toNat ≤ 2 ^ 63))
    (hb : big.grant env v = .ok f') :
    ∃ f, small.grant env v = .ok f ∧ f.file.length ≤ f'.file.length := by
  obtain ⟨h1, h2⟩ := h.ln ls (Wish.grant_inRange hb)
  exact Wish.grant_mono sp h1 h.capacity h.opt h2 hw hb

/-- With equal probabilities nothing about the logarithm but rough bounds is needed. -/
theorem C122_capacity_partial {env : Env} (sp : env.libm.Spec) {v : U8} {big small : Wish}
    {f' : Bloom} (hc : small.capacity.toNat ≤ big.capacity.toNat) (hp : small.fpp = big.fpp)
    (ho : small.opt.rank ≤ big.opt.rank)
    (hw : v = 1 ∨ small.opt.rank = 0 ∨ env.debug = true ∨
      (small.capacity.toNat ≤ 2 ^ 63 → big.capacity.toNat ≤ 2 ^ 63))
    (hb : big.grant env v = .ok f') :
    ∃ f, small.grant env v = .ok f ∧ f.file.length ≤ f'.file.length := by
  have hin := Wish.grant_inRange hb
  rw [← hp] at hin
  refine Wish.grant_mono sp hin hc ho ?_ hw hb
  obtain ⟨r, e, _⟩ := ln_inRange sp hin
  rw [← hp, e]
  simp [FVal.le]

theorem Wish.grant_not_err {env : Env} {v : U8} {w : Wish} (hv : v = 1#8 ∨ v = 2#8)
    (h : fppInRange w.fpp = true) (e : Error) : w.grant env v ≠ .err e := by
  have hr := (fppInRange_iff _).1 h
  intro he
  unfold Wish.grant Bloom.withVersionCapacityOpt at he
  rcases hv with rfl | rfl
  · rw [if_pos rfl] at he
    cases x : V1.withCapacity env w.capacity w.fpp with
    | err y => exact ((C44_v1 _ _ _ _).1 x).2 hr
    | panic => rw [x] at he; simp [Res.map] at he
    | ok b => rw [x] at he; simp [Res.map] at he
  · rw [if_neg (by decide), if_pos rfl] at he
    cases x : V2.make env w.capacity w.fpp w.opt with
    | err y => exact ((C44_v2 _ _ _ _ _).1 x).2 hr
    | panic => rw [x] at he; simp [Res.map] at he
    | ok b => rw [x] at he; simp [Res.map] at he

theorem Wish.grant_version {env : Env} {v : U8} {w : Wish} (h : w.grant env v = .panic) :
    v = 1#8 ∨ v = 2#8 := by
  by_contra hv
  rw [not_or] at hv
  unfold Wish.grant Bloom.withVersionCapacityOpt at h
  rw [if_neg hv.1, if_neg hv.2] at h
  simp at h

/-- If there is not enough memory for a filter, there is not enough for any that asks for more. -/
theorem C122_panics_partial {env : Env} (sp : env.libm.Spec) (ls : env.libm.LnSpec) {v : U8}
    {big small : Wish} (h : big.Exceeds small) (hin : 2 ^ 52 ≤ big.fpp.toNat)
    (hin' : big.fpp.toNat ≤ 1023 * 2 ^ 52)
    (hw : v = 1 ∨ small.opt.rank = 0 ∨ env.debug = true ∨
      (small.capacity.toNat ≤ 2 ^ 63 → big.capacity.toNat ≤ 2 ^ 63))
    (hs : small.grant env v = .panic) : big.grant env v = .panic := by
  cases hb : big.grant env v with
  | panic => rfl
  | err e =>
    exact absurd hb (Wish.grant_not_err (Wish.grant_version hs) ((fppInRange_iff _).2 ⟨hin, hin'⟩) e)
  | ok f' =>
    obtain ⟨f, e, _⟩ := C122_partial sp ls h hw hb
    rw [hs] at e
    simp at e

/-! ### counterexample -/

/-- With probability 1 a single bucket holds any number of entries. -/
theorem capFromBitSize_one {lm : Libm} (sp : lm.Spec) :
    capFromBitSize lm V2.bucketBitSize (FVal.ofBits oneBits) = BitVec.allOnes 64 := by
  obtain ⟨s, hs, hs1, hs2⟩ := sp.ln_two_sq
  unfold capFromBitSize
  rw [ofU64_bucketBitSize, show FVal.two = .fin 2 from rfl, hs, ofBits_one, sp.ln_one]
  have h1 : (15728 : ℚ) ≤ 32768 * s := by linarith
  have h2 : 32768 * s ≤ 2 ^ 128 := by linarith [show (2 : ℚ) ^ 15 ≤ 2 ^ 128 by norm_num]
  rw [show FVal.mul (.fin 32768) (.fin s) = .fin (rndQ (32768 * s)) from
    (rnd_pos (le_trans (by norm_num) h1) h2).1]
  have hm0 : 15728 ≤ rndQ (32768 * s) :=
    le_rndQ _ (by simpa using isF_nat (m := 15728) (by norm_num)) (by simpa using h1)
  have hp : 0 < rndQ (32768 * s) := by linarith
  simp [FVal.div, FVal.infTimes, hp, FVal.abs, FVal.toU64]

/-- Making a filter with level Best, probability 1 and a single bucket. -/
theorem V2.make_one {env : Env} (sp : env.libm.Spec) {cap cb : U64}
    (hc : nextPowerOfTwo env.debug cap = .ok cb)
    (hn : FVal.toU64 (FVal.ceil (FVal.div (FVal.ofU64 cap) (FVal.ofU64 (BitVec.allOnes 64)))) = 1)
    (h1 : (byteCapFromBitCap cb).toNat ≤ env.allocLimit) (h2 : 4096 ≤ env.allocLimit) :
    ∃ f, make env cap oneBits .best = .ok f ∧
      (Bloom.v2 f).file.length = 56 + (byteCapFromBitCap cb).toNat + 4096 := by
  have hs : sizes env cap oneBits .best = .ok (1, nHashOpt env.libm cap cb (FVal.round (FVal.div
      (FVal.ofU64 bucketBitSize) (FVal.ofU64 (BitVec.allOnes 64)))), cb) := by
    unfold sizes
    simp only [hc, Res.bind_ok, capFromBitSize_one sp, hn]
  obtain ⟨f, hm, _⟩ := make_of_memory (by decide +kernel) hs h1 (by simpa using h2)
  refine ⟨f, hm, ?_⟩
  obtain ⟨_, nb, nh, cb', hs', _, _, e⟩ := make_ok hm
  rw [hs] at hs'
  cases hs'
  have l := (C23_v2_layout f (by rw [e]; rfl)).2
  rw [V2.file_eq] at l
  rw [Bloom.file_eq]
  show f.ser.length = _
  rw [l, e]
  simp [VecBitSet.withBitCapacity, VecBitSet.asSlice]

/-- The claim is false for release builds, whatever the floating point library and with 1 MiB or
more: `next_power_of_two` of a capacity above 2^63 wraps to 0, so the filter for 2^63 + 1 entries has
no index cache and is shorter than the filter for 2^20 entries. -/
theorem C122_violated {env : Env} (sp : env.libm.Spec) (hd : env.debug = false)
    (hl : 2 ^ 20 ≤ env.allocLimit) :
    ∃ (big small : Wish) (f' f : Bloom), big.Exceeds small ∧ big.grant env 2 = .ok f' ∧
      small.grant env 2 = .ok f ∧ f'.file.length < f.file.length := by
  have h1 : (byteCapFromBitCap 0).toNat = 0 := by decide +kernel
  have h2 : (byteCapFromBitCap 1048576).toNat = 131072 := by decide +kernel
  obtain ⟨f', e', l'⟩ := V2.make_one sp (cap := 0x8000000000000001#64) (cb := 0)
    (by rw [hd]; decide +kernel) (by decide +kernel) (by rw [h1]; omega) (by omega)
  obtain ⟨f, e, l⟩ := V2.make_one sp (cap := 1048576) (cb := 1048576)
    (by rw [hd]; decide +kernel) (by decide +kernel) (by rw [h2]; omega) (by omega)
  refine ⟨⟨0x8000000000000001#64, oneBits, .best⟩, ⟨1048576, oneBits, .best⟩, .v2 f', .v2 f,
    ⟨by decide, by decide +kernel, by decide +kernel, le_refl _⟩, ?_, ?_, ?_⟩
  · show (V2.make env _ _ _).map _ = _
    rw [e']; rfl
  · show (V2.make env _ _ _).map _ = _
    rw [e]; rfl
  · rw [l, l', h1, h2]; omega

/-! ### examples -/

theorem Sample.many_panic (opt : OptLevel) :
    V2.make (Sample.envX true) 1000000000 Sample.half opt = .panic := by
  obtain ⟨_, c2⟩ := Sample.half_capacity
  have e9 : (((1000000000 : U64).toNat : ℕ) : ℝ) = 1000000000 := by
    rw [show (1000000000 : U64).toNat = 1000000000 from by decide]; norm_num
  have e20 : (((Sample.envX true).allocLimit : ℕ) : ℝ) = 2 ^ 20 := by
    show (((2 ^ 20 : ℕ)) : ℝ) = 2 ^ 20
    norm_num
  have e44 : (2 : ℝ) ^ (-44 : ℤ) = 1 / 2 ^ 44 := by norm_num
  refine C110_v2_panics (Sample.envX_accurate true) (by decide) Sample.half_eq (by norm_num) ?_
  rw [e9, e20, e44]
  push_cast at c2 ⊢
  linarith

/-- 5000 entries with probability 1/2 against 4000 with probability 3/4. -/
example : ∃ f' f, (Wish.mk 5000 Sample.half .none).grant (Sample.envX true) 2 = .ok f' ∧
    (Wish.mk 4000 0x3FE8000000000000#64 .space).grant (Sample.envX true) 2 = .ok f ∧
    f.file.length ≤ f'.file.length := by
  obtain ⟨g, hg⟩ := C110_v2_any (env := Sample.envX true) Libm.exact_spec (cap := 5000)
    (fpp := Sample.half) (Or.inl rfl) (by decide) (by show 5000 * 187 + 4096 ≤ 2 ^ 20; decide)
  have hb : (Wish.mk 5000 Sample.half .none).grant (Sample.envX true) 2 = .ok (.v2 g) := by
    show (V2.make _ _ _ _).map _ = _
    rw [hg]; rfl
  obtain ⟨f, e, l⟩ := C122_partial (env := Sample.envX true) Libm.exact_spec Libm.exact_lnSpec
    (small := ⟨4000, 0x3FE8000000000000#64, .space⟩)
    ⟨by decide, by decide +kernel, by decide +kernel, by decide⟩ (Or.inr (Or.inl rfl)) hb
  exact ⟨_, f, hb, e, l⟩

/-- A filter with level Best against one for fewer entries without a cache. -/
example : ∃ f, (Wish.mk 100 Sample.p001 .none).grant Sample.env 2 = .ok f ∧
    f.file.length ≤ (Bloom.v2 Sample.f2).file.length :=
  C122_capacity_partial Sample.libm_spec (big := ⟨5000, Sample.p001, .best⟩) (by decide) rfl
    (by decide) (Or.inr (Or.inr (Or.inr fun _ => by decide)))
    (by show (V2.make _ _ _ _).map _ = _; rw [Sample.f2_make]; rfl)

/-- A thousand million entries with probability 1/2 do not fit, so a few more with probability 1/4 do
not either. -/
example : (Wish.mk 1000000000 Sample.half .speed).grant (Sample.envX true) 2 = .panic ∧
    (Wish.mk 1000000007 0x3FD0000000000000#64 .speed).grant (Sample.envX true) 2 = .panic := by
  have hs : (Wish.mk 1000000000 Sample.half .speed).grant (Sample.envX true) 2 = .panic := by
    show (V2.make _ _ _ _).map _ = _
    rw [Sample.many_panic _]; rfl
  exact ⟨hs, C122_panics_partial (env := Sample.envX true) Libm.exact_spec Libm.exact_lnSpec
    (small := ⟨1000000000, Sample.half, .speed⟩)
    ⟨by decide, by decide +kernel, by decide +kernel, le_refl _⟩ (by decide) (by decide)
    (Or.inr (Or.inr (Or.inr fun _ => by decide))) hs⟩

example : Sample.env.debug = false ∧ 2 ^ 20 ≤ Sample.env.allocLimit := ⟨rfl, by decide⟩

end Poppy
