import Verif.Lemmas.Messages
import Verif.Props.Python
import Verif.Props.Load
import Verif.Props.Constructor

/-!
# Error messages

C101: the text of the `ValueError` each call raises.
-/

namespace Poppy

open Cli Py Spec

/-! ## C101 error messages -/

/-- The message for a wrong probability: the number in it is the one that was given. -/
def FppMessage (t : String) (b : F64) : Prop :=
  ∃ s, t = "fpp value must be in ]0;1] fpp=" ++ String.ofList s ∧
    (FVal.ofBits b ≠ .nan → readF64 s = some b) ∧ (FVal.ofBits b = .nan → s = ['N', 'a', 'N'])

theorem fppMessage_text (io : IoKind → String) (b : F64) :
    FppMessage ((Error.wrongFpp b).text io) b := by
  obtain ⟨s, h1, h2, h3⟩ := f64Shown_spec b
  exact ⟨s, by rw [← h1]; rfl, h2, h3⟩

/-- The constructors: which message they fail with, for all arguments.  A wrong level is reported
first, then a wrong version, then a wrong probability. -/
theorem C101_with_params (io : IoKind → String) (env : Env) (v : U8) (cap : U64) (fpp : F64)
    (opt : U8) :
    (3 < opt.toNat → (Py.withParams env v cap fpp opt).message io
        = some ("invalid opt-level=" ++ toString opt.toNat)) ∧
    (opt.toNat ≤ 3 → v ≠ 1#8 → v ≠ 2#8 → (Py.withParams env v cap fpp opt).message io
        = some ("invalid version " ++ toString v.toNat)) ∧
    (opt.toNat ≤ 3 → v = 1#8 ∨ v = 2#8 → ¬ (2 ^ 52 ≤ fpp.toNat ∧ fpp.toNat ≤ 1023 * 2 ^ 52) →
      ∃ t, (Py.withParams env v cap fpp opt).message io = some t ∧ FppMessage t fpp) ∧
    (opt.toNat ≤ 3 → v = 1#8 ∨ v = 2#8 → 2 ^ 52 ≤ fpp.toNat ∧ fpp.toNat ≤ 1023 * 2 ^ 52 →
      (Py.withParams env v cap fpp opt).message io = none) := by
  obtain ⟨h1, h2, -, -⟩ := C62_with_params env v cap fpp opt
  refine ⟨fun h => by rw [h1 h]; rfl, fun h hv1 hv2 => ?_, fun h hv hr => ?_, fun h hv hr => ?_⟩
  all_goals
    obtain ⟨o, -, h3⟩ := h2 h
    rw [h3]
    have key := C44_bloom env v cap fpp o
  · rw [(key _).2 (.inl ⟨hv1, hv2, rfl⟩)]; rfl
  · rw [(key _).2 (.inr ⟨hv, rfl, hr⟩)]
    exact ⟨_, rfl, fppMessage_text io fpp⟩
  · cases hc : Bloom.withVersionCapacityOpt env v cap fpp o with
    | ok f => rfl
    | panic => rfl
    | err e =>
      rcases (key e).1 hc with ⟨a, b, -⟩ | ⟨-, -, hn⟩
      · rcases hv with hv | hv
        · exact absurd hv a
        · exact absurd hv b
      · exact absurd hr hn

/-- `BloomFilter(capacity, fpp)` and `with_version`. -/
theorem C101_new (io : IoKind → String) (env : Env) (v : U8) (cap : U64) (fpp : F64) :
    (v ≠ 1#8 → v ≠ 2#8 → (Py.withVersion env v cap fpp).message io
        = some ("invalid version " ++ toString v.toNat)) ∧
    (v = 1#8 ∨ v = 2#8 → ¬ (2 ^ 52 ≤ fpp.toNat ∧ fpp.toNat ≤ 1023 * 2 ^ 52) →
      ∃ t, (Py.withVersion env v cap fpp).message io = some t ∧
        (Py.new env cap fpp).message io = some t ∧ FppMessage t fpp) ∧
    (2 ^ 52 ≤ fpp.toNat ∧ fpp.toNat ≤ 1023 * 2 ^ 52 → (Py.new env cap fpp).message io = none ∧
      (v = 1#8 ∨ v = 2#8 → (Py.withVersion env v cap fpp).message io = none)) := by
  obtain ⟨-, -, h3, h4⟩ := C62_with_params env v cap fpp 0
  rw [h3, h4]
  obtain ⟨-, a2, a3, a4⟩ := C101_with_params io env v cap fpp 0
  obtain ⟨-, -, b3, b4⟩ := C101_with_params io env 2 cap fpp 0
  refine ⟨a2 (by decide), fun hv hr => ?_, fun hr => ⟨b4 (by decide) (.inr rfl) hr,
    fun hv => a4 (by decide) hv hr⟩⟩
  have e : ∀ w : U8, w = 1#8 ∨ w = 2#8 → (Py.withParams env w cap fpp 0).message io
      = some ((Error.wrongFpp fpp).text io) := by
    intro w hw
    obtain ⟨o, -, h5⟩ := (C62_with_params env w cap fpp 0).2.1 (by decide)
    rw [h5, (C44_bloom env w cap fpp o _).2 (.inr ⟨hw, rfl, hr⟩)]; rfl
  exact ⟨_, e v hv, e 2 (.inr rfl), fppMessage_text io fpp⟩

/-- Insertion has one message only, and then the filter is unchanged. -/
theorem C101_insert (io : IoKind → String) {env : Env} (hs : env.Small) {f : Bloom}
    (hf : f.Reach env) (k : List U8) {t : String}
    (h : (Py.insertBytes env f k).2.message io = some t) :
    t = "too many entries, false positive rate cannot be met" ∧ (Py.insertBytes env f k).1 = f := by
  cases hr : (Py.insertBytes env f k).2 with
  | ok b => rw [hr] at h; cases h
  | osError e => rw [hr] at h; cases h
  | panic => rw [hr] at h; cases h
  | valueError e =>
    obtain ⟨h1, rfl⟩ := (C62_insert_fails env hs f hf k).2 e hr
    rw [hr] at h
    exact ⟨(Option.some.inj h).symm, h1⟩

/-- Merging and comparing: the message for filters with different parameters; no other message. -/
theorem C101_merge (io : IoKind → String) (env : Env) (f o : Bloom) :
    (f.hasSameParams o = .ok false →
      (Py.unionMerge env f o).2.message io
        = some "union error: cannot merge filters with different parameters" ∧
      (Py.countCommonEntries env f o).message io
        = some "union error: cannot compare filters with different parameters") ∧
    (f.hasSameParams o ≠ .ok false →
      (Py.unionMerge env f o).2.message io = none ∧
      (Py.countCommonEntries env f o).message io = none) := by
  refine ⟨fun h => ?_, fun h => ?_⟩
  · unfold Py.unionMerge Py.countCommonEntries Bloom.unionMerge Bloom.countCommonEntries
    rw [h]
    exact ⟨rfl, rfl⟩
  · have h1 := (C62_merge_fails env f o).2.1
    have h2 := (C62_common_fails env f o).2
    constructor
    · cases hr : (Py.unionMerge env f o).2 with
      | valueError e => exact absurd (h1.1 ⟨e, hr⟩) h
      | _ => rfl
    · cases hr : Py.countCommonEntries env f o with
      | valueError e => exact absurd (h2.1 ⟨e, hr⟩) h
      | _ => rfl

/-- Loading: which message it fails with, for all byte strings. -/
theorem C101_loads (io : IoKind → String) {env : Env} (hs : env.Small) (bs : List U8) :
    match Spec.load env.allocLimit bs with
    | .eof => (Py.loads env bs).message io = some (io .unexpectedEof)
    | .level o => (Py.loads env bs).message io = some ("invalid opt-level=" ++ toString o.toNat)
    | .version v => (Py.loads env bs).message io = some ("invalid version " ++ toString v.toNat)
    | .fpp b => ∃ t, (Py.loads env bs).message io = some t ∧ FppMessage t (BitVec.ofNat 64 b)
    | .seek => False
    | .overflow => False
    | .memory => (Py.loads env bs).message io = none
    | .ok _ => (Py.loads env bs).message io = none := by
  have key := C79_bloom hs bs
  unfold Py.loads
  have e : ∀ x, (Bloom.fromReader env (Reader.ofBytes bs)).map Bloom.content = .err x →
      Bloom.fromReader env (Reader.ofBytes bs) = .err x := by
    intro x h
    cases hr : Bloom.fromReader env (Reader.ofBytes bs) <;> rw [hr] at h <;>
      simp_all [Res.map]
  have n : ∀ r : Res (File1 ⊕ File2), (∀ x, r ≠ .err x) →
      (Bloom.fromReader env (Reader.ofBytes bs)).map Bloom.content = r →
      (PyRes.ofRes (Bloom.fromReader env (Reader.ofBytes bs))).message io = none := by
    intro r hx h
    cases hr : Bloom.fromReader env (Reader.ofBytes bs) with
    | err x => rw [hr] at h; exact absurd h.symm (hx x)
    | _ => rfl
  have hno := load_ne_overflow env.allocLimit bs
  have hns := load_ne_seek env.allocLimit bs
  cases hl : Spec.load env.allocLimit bs with
  | eof => rw [hl] at key; rw [e _ key]; rfl
  | level o => rw [hl] at key; rw [e _ key]; rfl
  | version v => rw [hl] at key; rw [e _ key]; rfl
  | fpp b =>
    rw [hl] at key; rw [e _ key]
    exact ⟨_, rfl, fppMessage_text io _⟩
  | seek => exact hns hl
  | overflow => exact hno hl
  | memory => rw [hl] at key; exact n _ (by simp [Load.res]) key
  | ok a => rw [hl] at key; exact n _ (by simp [Load.res]) key

/-- Dumping never fails, and saving fails with a message only if writing does. -/
theorem C101_write (io : IoKind → String) (f : Bloom) (w : World) (p : Path) :
    (Py.dumps f).message io = none ∧
    ∀ t, (Py.save w f p).2.message io = some t → ∃ k, t = io k := by
  refine ⟨by rw [Py.dumps_eq]; rfl, fun t h => ?_⟩
  unfold Py.save at h
  cases hc : w.create p with
  | mk w' r =>
    rw [hc] at h
    cases r with
    | err e => cases h
    | panic => cases h
    | ok u =>
      simp only at h
      have hw := Bloom.write_ne_panic f w'.disk
      generalize f.write ⟨[], w'.disk⟩ = x at h hw
      obtain ⟨s, r⟩ := x
      rcases hw with hw | hw
      · simp only at hw; rw [hw] at h; cases h
      · simp only at hw; rw [hw] at h; exact ⟨_, (Option.some.inj h).symm⟩

/-- The message tells what is wrong: errors of the library with the same message are the same,
except that all NaN look alike. -/
theorem C101_tells (io : IoKind → String) {e e' : Error} (h : e.text io = e'.text io)
    (hio : ∀ k, e ≠ .ioError k ∧ e' ≠ .ioError k) (ho : ∀ m, e ≠ .other m ∧ e' ≠ .other m) :
    e = e' ∨ ∃ b b', e = .wrongFpp b ∧ e' = .wrongFpp b' ∧ FVal.ofBits b = .nan ∧
      FVal.ofBits b' = .nan := by
  have i1 : ∀ k, e ≠ .ioError k := fun k => (hio k).1
  have i2 : ∀ k, e' ≠ .ioError k := fun k => (hio k).2
  have o1 : ∀ m, e ≠ .other m := fun m => (ho m).1
  have o2 : ∀ m, e' ≠ .other m := fun m => (ho m).2
  have hk : kind e = kind e' := by
    rw [← kind_text io i1 o1, ← kind_text io i2 o2, h]
  cases e with
  | ioError k => exact absurd rfl (i1 k)
  | other m => exact absurd rfl (o1 m)
  | wrongFpp b =>
    cases e' with
    | wrongFpp b' =>
      rcases f64Shown_inj (append_string_inj h) with h | ⟨h1, h2⟩
      · exact .inl (congrArg _ h)
      · exact .inr ⟨_, _, rfl, rfl, h1, h2⟩
    | _ => exact absurd hk (by simp [kind])
  | invalidVersion v =>
    cases e' with
    | invalidVersion v' => exact .inl (congrArg _ (u8Shown_injective (append_string_inj h)))
    | _ => exact absurd hk (by simp [kind])
  | merge m =>
    cases e' with
    | merge m' => exact .inl (congrArg _ (append_string_inj h))
    | _ => exact absurd hk (by simp [kind])
  | optLevel v =>
    cases e' with
    | optLevel v' => exact .inl (congrArg _ (u8Shown_injective (append_string_inj h)))
    | _ => exact absurd hk (by simp [kind])
  | tooManyEntries =>
    cases e' with
    | tooManyEntries => exact .inl rfl
    | _ => exact absurd hk (by simp [kind])
  | uninitIter =>
    cases e' with
    | uninitIter => exact .inl rfl
    | _ => exact absurd hk (by simp [kind])

/-- What the message about the probability says is right, if the given one is not too near to
zero: the number is not in `]0;1]`. -/
theorem C101_range_partial (io : IoKind → String) (env : Env) (v : U8) (cap : U64) (fpp : F64)
    (opt : U8) {t s : String}
    (h : (Py.withParams env v cap fpp opt).message io = some t)
    (ht : t = "fpp value must be in ]0;1] fpp=" ++ s)
    (hq : ∀ q : ℚ, FVal.ofBits fpp = .fin q → ¬ (0 < q ∧ q < 2 ^ (-1022 : ℤ))) :
    ∀ q : ℚ, FVal.ofBits fpp = .fin q → ¬ (0 < q ∧ q ≤ 1) := by
  intro q hf ⟨h0, h1⟩
  obtain ⟨a1, a2, a3, a4⟩ := C101_with_params io env v cap fpp opt
  have hr : 2 ^ 52 ≤ fpp.toNat ∧ fpp.toNat ≤ 1023 * 2 ^ 52 :=
    (C44_range fpp).2 ⟨q, hf, not_lt.1 fun hlt => hq q hf ⟨h0, hlt⟩, h1⟩
  rcases Nat.lt_or_ge 3 opt.toNat with ho | ho
  · rw [a1 ho, ht] at h
    exact ne_of_take (by decide) (by decide) (by decide) (Option.some.inj h)
  · by_cases hv : v = 1#8 ∨ v = 2#8
    · rw [a4 ho hv hr] at h; cases h
    · rw [not_or] at hv
      rw [a2 ho hv.1 hv.2, ht] at h
      exact ne_of_take (by decide) (by decide) (by decide) (Option.some.inj h)

/-- It is wrong for the others: `2 ^ -1074` is in `]0;1]`. -/
theorem C101_range_violated (io : IoKind → String) (env : Env) (cap : U64) :
    ∃ fpp, ∃ q : ℚ, FVal.ofBits fpp = .fin q ∧ 0 < q ∧ q ≤ 1 ∧
      ∃ s, (Py.new env cap fpp).message io = some ("fpp value must be in ]0;1] fpp=" ++ s) := by
  have hb : FVal.ofBits 1#64 = .fin (2 ^ (-1074 : ℤ)) := by decide +kernel
  refine ⟨1#64, _, hb, by positivity, zpow_le_one_of_nonpos₀ (by norm_num) (by norm_num), ?_⟩
  obtain ⟨t, -, ht, s, hs, -⟩ := (C101_new io env 2 cap 1#64).2.1 (.inr rfl) (by decide)
  exact ⟨_, ht.trans (congrArg some hs)⟩

/-! Concrete cases -/

/-- The messages of the system, for the examples. -/
def sampleIo : IoKind → String
  | .unexpectedEof => "failed to fill whole buffer"
  | _ => "error"

example : (Py.withParams Sample.env 3 100 0#64 4).message sampleIo = some "invalid opt-level=4" :=
  (C101_with_params sampleIo Sample.env 3 100 0#64 4).1 (by decide)

example : (Py.withParams Sample.env 3 100 0#64 1).message sampleIo = some "invalid version 3" :=
  (C101_with_params sampleIo Sample.env 3 100 0#64 1).2.1 (by decide) (by decide) (by decide)

-- 1.5, -0 and NaN
example : (Py.withParams Sample.env 1 100 0x3FF8000000000000#64 1).message sampleIo
    = some "fpp value must be in ]0;1] fpp=1.5" := by decide +kernel

example : (Py.new Sample.env 100 0x8000000000000000#64).message sampleIo
    = some "fpp value must be in ]0;1] fpp=-0" := by decide +kernel

example : (Py.new Sample.env 100 0x7FF8000000000000#64).message sampleIo
    = some "fpp value must be in ]0;1] fpp=NaN" := by decide +kernel

example : ∃ t, (Py.withVersion Sample.env 1 100 0#64).message sampleIo = some t ∧
    (Py.new Sample.env 100 0#64).message sampleIo = some t ∧ FppMessage t 0#64 :=
  (C101_new sampleIo Sample.env 1 100 0#64).2.1 (.inl rfl) (by decide)

example (k : List U8) (t : String)
    (h : (Py.insertBytes Sample.env (.v2 Sample.f2) k).2.message sampleIo = some t) :
    t = "too many entries, false positive rate cannot be met" :=
  (C101_insert sampleIo Sample.env_small (f := .v2 Sample.f2) (V2.Reach.make Sample.f2_make) k h).1

example : (Py.countCommonEntries Sample.env (.v1 Sample.f1) (.v2 Sample.f2)).message sampleIo
    = some "union error: cannot compare filters with different parameters" :=
  ((C101_merge sampleIo Sample.env (.v1 Sample.f1) (.v2 Sample.f2)).1 rfl).2

example : (Py.loads Sample.env [2, 0, 0]).message sampleIo
    = some "failed to fill whole buffer" :=
  C101_loads sampleIo Sample.env_small [2, 0, 0]

example : (Py.loads Sample.env [9, 0, 0, 0, 0, 0, 0, 0]).message sampleIo
    = some "invalid version 9" :=
  C101_loads sampleIo Sample.env_small [9, 0, 0, 0, 0, 0, 0, 0]

example (v w : U8) (h : (Error.invalidVersion v).text sampleIo
    = (Error.invalidVersion w).text sampleIo) : v = w := by
  rcases C101_tells sampleIo h (by simp) (by simp) with h | ⟨b, b', h, -⟩
  · exact Error.invalidVersion.inj h
  · cases h

end Poppy
