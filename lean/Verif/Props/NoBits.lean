import Verif.Props.Accuracy
import Verif.Props.Exact
import Verif.Props.CliCommands

/-!
# C02, C56: which DCSO filters have no bits

The number of bits is rounded down, so that not only filters for the probability 1 have none.
-/

namespace Poppy

open Spec Cli

theorem V1.keeps_bitSize {env : Env} {g h : V1} (hg : V1.Reach env g) (hk : V1.Keeps env g h) :
    V1.Reach env h ∧ h.bitSize = g.bitSize := by
  induction hk with
  | refl => exact ⟨hg, rfl⟩
  | @step g' h _ st ih =>
    obtain ⟨h1, h2⟩ := ih
    cases st with
    | insert key => exact ⟨.insert _ h1, by rw [(V1.insertBytes_ext env g' key).bitSize]; exact h2⟩
    | union o => exact ⟨.union _ h1, by rw [(V1.unionMerge_ext env g' o).bitSize]; exact h2⟩
    | setData d => exact ⟨.setData d h1, h2⟩
    | reload hr =>
      have hl := hr
      rw [h1.fits.reload] at hr
      cases hr
      exact ⟨.load hl, h2⟩

/-- `ln (5/3)`, compared to `ln 2`. -/
theorem log_five_thirds : 11 / 15 * Real.log 2 ≤ Real.log (5 / 3) := by
  have h : Real.log ((2 : ℝ) ^ 11) ≤ Real.log ((5 / 3 : ℝ) ^ 15) :=
    Real.log_le_log (by norm_num) (by norm_num)
  rw [Real.log_pow, Real.log_pow] at h
  push_cast at h
  linarith

/-- `ln (8/5)`, compared to `ln 2`. -/
theorem log_eight_fifths : Real.log (8 / 5) ≤ 17 / 25 * Real.log 2 := by
  have h : Real.log ((8 / 5 : ℝ) ^ 25) ≤ Real.log ((2 : ℝ) ^ 17) :=
    Real.log_le_log (by norm_num) (by norm_num)
  rw [Real.log_pow, Real.log_pow] at h
  push_cast at h
  linarith

/-- A new v1 filter has bits exactly when the textbook formula asks for at least one; this is so for
all capacities if the probability is at most 3/5, and not so for the capacity 1 and probabilities from
5/8 on. -/
theorem C02_bits {env : Env} (hs : env.Small) (ac : env.libm.Accurate) {cap : U64} {fpp : F64}
    {f : V1} (h : V1.withCapacity env cap fpp = .ok f) {p : ℚ} (hp : FVal.ofBits fpp = .fin p) :
    (1 ≤ bestBits cap.toNat p * (1 - 2 ^ (-44 : ℤ)) → f.bitSize ≠ 0) ∧
    (bestBits cap.toNat p * (1 + 2 ^ (-44 : ℤ)) < 1 → f.bitSize = 0) ∧
    (cap ≠ 0 → p ≤ 3 / 5 → f.bitSize ≠ 0) ∧
    (cap = 1 → 5 / 8 ≤ p → f.bitSize = 0) := by
  obtain ⟨b1, b2⟩ := C71_v1_bits hs ac h hp
  obtain ⟨_, _, e, q0, q1, _⟩ := ac.ln_fpp (V1.withCapacity_ok h).1
  rw [hp] at e
  cases e
  have hl := log_two_bounds
  have hl0 : 0 < Real.log 2 := by linarith
  have p0 : (0 : ℝ) < p := by exact_mod_cast q0
  have i1 : 1 ≤ bestBits cap.toNat p * (1 - 2 ^ (-44 : ℤ)) → f.bitSize ≠ 0 := by
    intro h1 h0
    rw [h0] at b1
    have b1 : bestBits cap.toNat p * (1 - 2 ^ (-44 : ℤ)) - 1 < ((0 : ℕ) : ℝ) := b1
    rw [Nat.cast_zero] at b1
    linarith
  have i2 : bestBits cap.toNat p * (1 + 2 ^ (-44 : ℤ)) < 1 → f.bitSize = 0 := by
    intro h1
    have : (f.bitSize.toNat : ℝ) < 1 := lt_of_le_of_lt b2 h1
    have : f.bitSize.toNat < 1 := by exact_mod_cast this
    exact BitVec.eq_of_toNat_eq (by simp; omega)
  refine ⟨i1, i2, fun hc h1 => i1 ?_, fun hc h1 => i2 ?_⟩
  · have hcn : (1 : ℝ) ≤ cap.toNat := by exact_mod_cast toNat_pos_of_ne hc
    have h2 : 11 / 15 * Real.log 2 ≤ -Real.log p := by
      rw [← Real.log_inv]
      refine log_five_thirds.trans (Real.log_le_log (by norm_num) ?_)
      rw [le_inv_comm₀ (by norm_num) p0]
      have : (p : ℝ) ≤ ((3 / 5 : ℚ) : ℝ) := Rat.cast_le.2 h1
      push_cast at this
      norm_num
      linarith
    have h3 : 11 / 15 * Real.log 2 ≤ cap.toNat * -Real.log p := by
      have : 0 ≤ -Real.log p := by linarith [mul_pos (show (0 : ℝ) < 11 / 15 by norm_num) hl0]
      nlinarith
    have h4 : (105 / 100 : ℝ) ≤ bestBits cap.toNat p := by
      unfold bestBits
      rw [le_div_iff₀ (by positivity)]
      refine le_trans ?_ h3
      nlinarith
    have : (99 / 100 : ℝ) ≤ 1 - 2 ^ (-44 : ℤ) := by norm_num
    calc (1 : ℝ) ≤ 105 / 100 * (99 / 100) := by norm_num
      _ ≤ _ := mul_le_mul h4 this (by norm_num) (by linarith)
  · have h2 : -Real.log p ≤ 17 / 25 * Real.log 2 := by
      rw [← Real.log_inv]
      refine le_trans (Real.log_le_log (by positivity) ?_) log_eight_fifths
      rw [inv_le_comm₀ p0 (by norm_num)]
      have : ((5 / 8 : ℚ) : ℝ) ≤ p := Rat.cast_le.2 h1
      push_cast at this
      norm_num
      linarith
    have h4 : bestBits cap.toNat p ≤ (99 / 100 : ℝ) := by
      unfold bestBits
      rw [div_le_iff₀ (by positivity), hc]
      have : (((1 : U64).toNat : ℕ) : ℝ) = 1 := by
        rw [show (1 : U64).toNat = 1 from rfl, Nat.cast_one]
      rw [this, one_mul]
      refine le_trans h2 ?_
      nlinarith
    have : (1 : ℝ) + 2 ^ (-44 : ℤ) ≤ 1001 / 1000 := by norm_num
    calc bestBits cap.toNat p * (1 + 2 ^ (-44 : ℤ)) ≤ 99 / 100 * (1001 / 1000) :=
          mul_le_mul h4 this (by positivity) (by norm_num)
      _ < 1 := by norm_num

/-- No false negatives in filters made for at least one entry and a probability of at most 3/5. -/
theorem C02_usual_partial {env : Env} (hs : env.Small) (ac : env.libm.Accurate) {cap : U64} {fpp : F64}
    {f0 f g h : V1} (hm : V1.withCapacity env cap fpp = .ok f0) (hc : cap ≠ 0) {p : ℚ}
    (hp : FVal.ofBits fpp = .fin p) (hp1 : p ≤ 3 / 5) (h0 : V1.Keeps env f0 f) {k : List U8} {b : Bool}
    (hi : f.insertBytes env k = (g, .ok b)) (hk : V1.Keeps env g h) :
    h.containsBytes k = .ok true := by
  obtain ⟨hr, hb⟩ := V1.keeps_bitSize (.make hm) h0
  exact C02_no_false_negative_partial hs hr (by rw [hb]; exact (C02_bits hs ac hm hp).2.2.1 hc hp1) hi hk

/-- Every filter for one entry and a probability of 5/8 or more violates the property: it accepts the
first key, and does not contain it, then or later. -/
theorem C02_one_violated {env : Env} (hs : env.Small) (ac : env.libm.Accurate) {fpp : F64} {f h : V1}
    (hm : V1.withCapacity env 1 fpp = .ok f) {p : ℚ} (hp : FVal.ofBits fpp = .fin p) (hp1 : 5 / 8 ≤ p)
    (k : List U8) (hk : V1.Keeps env (f.insertBytes env k).1 h) :
    (∃ b, (f.insertBytes env k).2 = .ok b) ∧ h.containsBytes k = .ok false := by
  constructor
  · have hn := V1.allOk_of_room ac.spec hs (.make hm) (ks := [k]) (by
      rw [(V1.make_countOnes hm).2, (C46_v1_sizing ac.spec hs hm).2.2.2.2.1]
      exact le_refl 1)
    exact hn.1
  · obtain ⟨hr, hb⟩ := V1.keeps_bitSize (.insert k (.make hm)) hk
    exact V1.containsBytes_empty (V1.bitset_nil hr.fits (by
      rw [hb, (V1.insertBytes_ext env f k).bitSize]; exact (C02_bits hs ac hm hp).2.2.2 rfl hp1)) k

/-- After a successful `create` with a probability of at most 3/5 the file holds a filter that contains
every line. -/
theorem C56_usual_partial {env : Env} (hs : env.Small) (ac : env.libm.Accurate) {w w' : World}
    {s : Schedule} {o : Create} {jobs : ℕ} {es : List (List U8)} (hd : o.dataset ≠ [])
    (hr : Reads w o.dataset es) (hn : es.length < 2 ^ 64) (hdisk : w.disk = none) {p : ℚ}
    (hp : FVal.ofBits o.probability = .fin p) (hp1 : p ≤ 3 / 5)
    (h : create env w s o jobs = (w', some (.ok ()))) :
    ∃ bs g, w'.fs o.file = some bs ∧ Bloom.fromReader env (Reader.ofBytes bs) = .ok g ∧
      g.version = o.version ∧ g.capacity.toNat = es.length ∧ g.fpp = o.probability ∧
      ∀ k ∈ es, g.containsBytes env k = .ok true := by
  obtain ⟨bs, g, h1, h2, h3, h4, h5, _, _⟩ := C56_contains_partial hs hd hr hn hdisk h
  refine ⟨bs, g, h1, h2, h3, h4, h5, fun k hk => ?_⟩
  rcases create_cases env w s o jobs with ⟨_, h2⟩ | ⟨b, bf, _, hf, hpi, _, he⟩
  · rw [h] at h2; exact absurd rfl h2
  rw [h] at he
  have hw : w' = w.written o.file (bf.write ⟨[], w.disk⟩).1.out := congrArg Prod.fst he
  obtain ⟨cap, opt, _, hv, hcap⟩ := createFilter_ok hf
  have hb := (Bloom.new_spec hs hv).1
  have hbf : bf.Reach env := insertFiles_reach hb (parallelInsert_some hpi).symm
  obtain ⟨g', hg', _, gc, _⟩ := C22_bloom_round_trip env hs bf hbf
  have hbs : bs = bf.file := by
    rw [hw, written_out, hdisk] at h1
    simpa [World.written] using h1.symm
  rw [hbs] at h2
  rw [show Bloom.fromReader env (Reader.ofBytes bf.file) = _ from hg'] at h2
  cases h2
  rw [gc]
  refine (C54_members hs hb hpi hr k).2 ?_ hk
  unfold Bloom.withVersionCapacityOpt at hv
  split at hv
  · obtain ⟨f, hf1, rfl⟩ := Res.map_ok hv
    refine (C02_bits hs ac hf1 hp).2.2.1 ?_ hp1
    rcases hcap with ⟨e, _⟩ | ⟨_, _, rfl⟩
    · exact absurd e hd
    · rw [hr.2, List.length_map]
      intro h0
      have := congrArg BitVec.toNat h0
      rw [BitVec.toNat_ofNat, Nat.mod_eq_of_lt hn] at this
      have hpos := List.length_pos_of_mem hk
      simp at this
      rw [this] at hk
      simp at hk
  · split at hv
    · obtain ⟨f, _, rfl⟩ := Res.map_ok hv
      trivial
    · cases hv

/-! ## Concrete cases -/

namespace Sample

/-- The probability 3/4. -/
def p34 : F64 := 0x3FE8000000000000#64

theorem p34_eq : FVal.ofBits p34 = .fin (3 / 4) := by decide +kernel
theorem p34_inRange : fppInRange p34 = true := by decide +kernel

/-- Filters for one entry exist with the correctly rounded functions. -/
theorem one_make {fpp : F64} {p : ℚ} (hin : fppInRange fpp = true) (hp : FVal.ofBits fpp = .fin p)
    (h : 1 / 2 ≤ p) : ∃ f, V1.withCapacity (envX false) 1 fpp = .ok f := by
  have ac := envX_accurate false
  obtain ⟨v, v0, hv, nv⟩ := bitSizeFor_near ac hin hp 1
  have hl := log_two_bounds
  have hpr : ((1 / 2 : ℚ) : ℝ) ≤ p := Rat.cast_le.2 h
  push_cast at hpr
  have hx : ((1 : U64).toNat : ℝ) * -Real.log (p : ℝ) / Real.log 2 ^ 2 ≤ 200 := by
    rw [div_le_iff₀ (by nlinarith), show (1 : U64).toNat = 1 from rfl, Nat.cast_one, one_mul,
      ← Real.log_inv]
    have : Real.log ((p : ℝ)⁻¹) ≤ Real.log 2 := by
      refine Real.log_le_log (inv_pos.2 (by linarith)) ?_
      rw [inv_le_comm₀ (by linarith) (by norm_num)]
      linarith
    nlinarith
  have hv2 : (v : ℝ) ≤ 400 := nv.2.trans (by
    have := halfUlp_lt
    have := halfUlp_pos
    nlinarith)
  have hv2' : v ≤ 400 := by exact_mod_cast hv2
  have hn : (bitSizeFor (envX false).libm 1 (FVal.ofBits fpp)).toNat ≤ 400 := by
    have hf : ⌊v⌋ ≤ 400 := by
      have : ((⌊v⌋ : ℤ) : ℚ) ≤ 400 := (Int.floor_le v).trans hv2'
      exact_mod_cast this
    rw [hv, toU64_fin (lt_of_le_of_lt ((Int.floor_le v).trans hv2') (by norm_num)),
      Int.floor_intCast]
    omega
  have ha : (u64SizeFor (bitSizeFor (envX false).libm 1 (FVal.ofBits fpp))).toNat * 8
      ≤ (envX false).allocLimit := by
    rw [u64SizeFor_eq (by omega)]
    show _ ≤ 2 ^ 20
    omega
  unfold V1.withCapacity
  rw [hin]
  simp only [Bool.not_true, Bool.false_eq_true, if_false]
  rw [Env.alloc_of_le ha]
  exact ⟨_, rfl⟩

theorem p34_make : ∃ f, V1.withCapacity (envX false) 1 p34 = .ok f :=
  one_make p34_inRange p34_eq (by norm_num)

end Sample

-- a filter for one entry and the probability 3/4, whatever the key
example (k : List U8) : ∃ f, V1.withCapacity (Sample.envX false) 1 Sample.p34 = .ok f ∧
    (∃ b, (f.insertBytes (Sample.envX false) k).2 = .ok b) ∧
    (f.insertBytes (Sample.envX false) k).1.containsBytes k = .ok false := by
  obtain ⟨f, hf⟩ := Sample.p34_make
  exact ⟨f, hf, C02_one_violated (Sample.envX_small _) (Sample.envX_accurate _) hf Sample.p34_eq
    (by norm_num) k .refl⟩
-- a filter for 100 entries and the probability 1/2, whatever the keys
example (k k' : List U8) : ∃ f, V1.withCapacity (Sample.envX false) 100 Sample.half = .ok f ∧
    ∀ b, (f.insertBytes (Sample.envX false) k).2 = .ok b →
      ((f.insertBytes (Sample.envX false) k).1.insertBytes (Sample.envX false) k').1.containsBytes k =
        .ok true := by
  obtain ⟨f, hf⟩ := Sample.half_v1
  exact ⟨f, hf, fun b hb => C02_usual_partial (Sample.envX_small _) (Sample.envX_accurate _) hf (by decide)
    Sample.half_eq (by norm_num) .refl (b := b) (Prod.ext rfl hb) (.step .refl (.insert k'))⟩
-- a successful `create` with the probability 1/2, from a file with one line
example : ∃ s, (create (Sample.envX false) Sample.world2 s ⟨1, 0, Sample.half, 0, "out", ["x"]⟩ 1).2 =
    some (.ok ()) := by
  obtain ⟨f, hf⟩ := Sample.one_make Sample.half_inRange Sample.half_eq (le_refl _)
  have hc : createFilter (Sample.envX false) Sample.world2 ⟨1, 0, Sample.half, 0, "out", ["x"]⟩ 1 =
      some (.ok (.v1 f)) := by
    have hn : countLinesParallel Sample.world2 ["x"] 1 = some (.ok 1) := by decide +kernel
    unfold createFilter
    rw [hn]
    show some (Bloom.withVersionCapacityOpt (Sample.envX false) 1 1 Sample.half .none) = _
    unfold Bloom.withVersionCapacityOpt
    rw [if_pos (by decide), hf]
    rfl
  obtain ⟨N, hN⟩ := parallelInsert_fair (Sample.envX false) Sample.world2 (.v1 f) ["x"] 1
  have hp := hN (List.replicate N 0) (by
    intro i hi
    have : i = 0 := by simpa using hi
    simp [this])
  rcases C56_fits (Sample.envX_accurate false).spec (Sample.envX_small false)
    (o := ⟨1, 0, Sample.half, 0, "out", ["x"]⟩) (by simp) Sample.world2_reads_x (by norm_num) hc hp with
    ⟨g, hg⟩ | ⟨_, h⟩
  · rw [hg] at hp
    refine ⟨List.replicate N 0, ?_⟩
    unfold create
    rw [hc]
    simp only [hp]
    show some (g.write ⟨[], none⟩).2 = _
    rw [show (g.write ⟨[], none⟩).2 = .ok () by rw [C29_write_ok]]
  · cases h

end Poppy
