import Verif.Lemmas.DcsoKeys
import Verif.Props.Pow2

/-!
# Keys of the DCSO format

C102: which keys a v1 filter cannot tell apart, and how evenly their bits are spread.
-/

namespace Poppy

open Spec

/-! ## C102 keys of the DCSO format -/

/-- A v1 filter sees only the hash of a key modulo the constant of the format, in any state. -/
theorem C102_hash (env : Env) (f : V1) {a b : List U8}
    (h : fnv1 a % 18446744073709551557 = fnv1 b % 18446744073709551557) :
    f.insertBytes env a = f.insertBytes env b ∧ f.containsBytes a = f.containsBytes b := by
  have e : fnvHash a % V1.M = fnvHash b % V1.M := by
    apply BitVec.eq_of_toNat_eq
    rw [BitVec.toNat_umod, BitVec.toNat_umod, toNat_fnvHash, toNat_fnvHash]
    exact h
  have e' : f.fingerprint.fingerprint a = f.fingerprint.fingerprint b := by
    unfold Fingerprint.fingerprint
    rw [e]
  unfold V1.insertBytes V1.containsBytes
  rw [e']
  exact ⟨rfl, rfl⟩

/-- Two keys with the same hash can be continued in the same way: they can still not be told
apart. -/
theorem C102_suffix (env : Env) (f : V1) {a b : List U8} (h : fnv1 a = fnv1 b) (s : List U8) :
    fnv1 (a ++ s) = fnv1 (b ++ s) ∧ f.insertBytes env (a ++ s) = f.insertBytes env (b ++ s) ∧
      f.containsBytes (a ++ s) = f.containsBytes (b ++ s) := by
  have e : fnv1 (a ++ s) = fnv1 (b ++ s) := by rw [fnv1_append, fnv1_append, h]
  exact ⟨e, C102_hash env f (by rw [e])⟩

/-- A key with the hash 0. -/
def zeroKey : List U8 := [0x92, 0x06, 0x77, 0x4c, 0xe0, 0x2f, 0x89, 0x2a, 0xd2]

theorem fnv1_zeroKey : fnv1 zeroKey = 0 := by decide +kernel

/-- Zero bytes after that key are not seen, whatever follows. -/
theorem C102_zeros (env : Env) (f : V1) (n : ℕ) (s : List U8) :
    f.insertBytes env (zeroKey ++ List.replicate n 0#8 ++ s) = f.insertBytes env (zeroKey ++ s) ∧
    f.containsBytes (zeroKey ++ List.replicate n 0#8 ++ s) = f.containsBytes (zeroKey ++ s) :=
  (C102_suffix env f (by rw [fnv1_zeros fnv1_zeroKey, fnv1_zeroKey]) s).2

/-- All bits of that key are the bit 0: a filter contains it as soon as this one bit is set, with any
number of hash functions. -/
theorem C102_one_bit {env : Env} (hs : env.Small) {f : V1} (hf : V1.Reach env f)
    (hm : f.bitSize ≠ 0) (hk : f.nHash ≠ 0) (n : ℕ) :
    f.containsBytes (zeroKey ++ List.replicate n 0#8) = .ok (bitAt f.bitset 0) := by
  rw [V1.containsBytes_eq (hf.wf hs) _ hm, Res.ok.injEq, Bool.eq_iff_iff, V1.allSet_iff]
  have h0 : ∀ i, dcsoProbe (zeroKey ++ List.replicate n 0#8) f.bitSize.toNat i = 0 := by
    intro i
    unfold dcsoProbe
    rw [fnv1_zeros fnv1_zeroKey, dcsoChain_zero, Nat.zero_mod]
  constructor
  · intro h
    have := h 0 (V1.toNat_pos hk)
    rwa [h0] at this
  · intro h i _
    rwa [h0]

/-- Its insertion sets this bit only, and makes infinitely many keys members. -/
theorem C102_insert {env : Env} (hs : env.Small) {f g : V1} (hf : V1.Reach env f)
    (hm : f.bitSize ≠ 0) (hk : f.nHash ≠ 0) {b : Bool}
    (hi : f.insertBytes env zeroKey = (g, .ok b)) :
    (∀ i, i ≠ 0 → bitAt g.bitset i = bitAt f.bitset i) ∧ (b = !bitAt f.bitset 0) ∧
    ∀ n, g.containsBytes (zeroKey ++ List.replicate n 0#8) = .ok true := by
  have w := hf.wf hs
  have hgr : V1.Reach env g := by
    have := V1.Reach.insert zeroKey hf
    rwa [hi] at this
  have hc : f.capacity ≠ 0 := by
    intro hc
    unfold V1.insertBytes at hi
    rw [if_pos hc] at hi
    cases hi
  have hp : ∀ i, dcsoProbe zeroKey f.bitSize.toNat i = 0 := by
    intro i
    unfold dcsoProbe
    rw [fnv1_zeroKey, dcsoChain_zero, Nat.zero_mod]
  have h1 := C102_one_bit hs hf hm hk 0
  rw [List.replicate_zero, List.append_nil, V1.containsBytes_eq w _ hm] at h1
  injection h1 with h1
  rw [V1.insertBytes_eq env w _ hc hm] at hi
  split at hi
  · cases hi
  · injection hi with hg hb
    injection hb with hb
    have hbit : ∀ i, bitAt g.bitset i = (bitAt f.bitset i || decide (i = 0)) := by
      intro i
      rw [← hg, V1.bit_added w hm]
      congr 1
      rw [decide_eq_decide]
      exact ⟨fun ⟨n, _, e⟩ => by rw [e, hp], fun e => ⟨0, V1.toNat_pos hk, by rw [e, hp]⟩⟩
    refine ⟨fun i hi => by rw [hbit]; simp [hi], by rw [← hb, h1], fun n => ?_⟩
    rw [C102_one_bit hs hgr (by rw [← hg]; exact hm) (by rw [← hg]; exact hk), hbit]
    simp

example (n : ℕ) : ((Sample.f1.insertBytes Sample.env zeroKey).1.containsBytes
    (zeroKey ++ List.replicate n 0#8)) = .ok true := by
  have h : Sample.f1.insertBytes Sample.env zeroKey
      = ((Sample.f1.insertBytes Sample.env zeroKey).1, .ok true) := by decide +kernel
  exact (C102_insert Sample.env_small (.make Sample.f1_make) (by decide) (by decide) h).2.2 n

/-- If the number of bits is a multiple of a power of two, the bits of a key modulo that power
depend on its hash modulo that power only. -/
theorem C102_residues (key : List U8) {j m n : ℕ} (hj : j ≤ 64) (hd : 2 ^ j ∣ m)
    (u : Unreduced (fnv1 key) (n + 1)) :
    dcsoProbe key m n % 2 ^ j = fnv1 key % 2 ^ j * dcsoMul ^ (n + 1) % 2 ^ j := by
  unfold dcsoProbe
  rw [dcsoChain_of_lt u (fnv1_lt key), Nat.mod_mod_of_dvd _ hd,
    Nat.mod_mod_of_dvd _ (pow_dvd_pow 2 hj), Nat.mod_mul_mod]

/-- With an even number of bits, all bits of a key have the same parity as its hash. -/
theorem C102_parity (key : List U8) {m n : ℕ} (hd : 2 ∣ m) (u : Unreduced (fnv1 key) (n + 1)) :
    dcsoProbe key m n % 2 = fnv1 key % 2 := by
  have h := C102_residues key (j := 1) (by norm_num) (by simpa using hd) u
  rw [pow_one] at h
  rw [h, Nat.mul_mod, Nat.pow_mod, show dcsoMul % 2 = 1 from rfl, one_pow]
  omega

/-- So keys with even hash and keys with odd hash do not meet in such a filter: if only keys with
hashes of one parity were inserted, then no key with a hash of the other parity is a member. -/
theorem C102_halves {env : Env} (hs : env.Small) {f : V1} {S : List (List U8)}
    (h : V1.Holds env f S) (hd : 2 ∣ f.bitSize.toNat) (hm : f.bitSize ≠ 0) (hk : f.nHash ≠ 0)
    {r : ℕ} (hS : ∀ s ∈ S, fnv1 s % 2 = r ∧ Unreduced (fnv1 s) f.nHash.toNat)
    {q : List U8} (hq : fnv1 q % 2 ≠ r) (uq : Unreduced (fnv1 q) f.nHash.toNat) :
    f.containsBytes q = .ok false := by
  have hk0 := V1.toNat_pos hk
  rw [V1.containsBytes_eq (h.built.reach.wf hs) q hm, Res.ok.injEq, ← Bool.not_eq_true,
    V1.allSet_iff]
  intro hall
  obtain ⟨s, hs', n, hn, e⟩ := (h.bits hs _).1 (hall 0 hk0)
  have h1 := C102_parity q hd (n := 0) fun i hi => uq i (by omega)
  have h2 := C102_parity s hd (n := n) fun i hi => (hS s hs').2 i (by omega)
  rw [e, h2, (hS s hs').1] at h1
  exact hq h1.symm

example : (Sample.f1pow.insertBytes Sample.env8 [98]).1.containsBytes [97] = .ok false := by
  have h : Sample.f1pow.insertBytes Sample.env8 [98]
      = ((Sample.f1pow.insertBytes Sample.env8 [98]).1, .ok true) := by decide +kernel
  have hh : V1.Holds Sample.env8 (Sample.f1pow.insertBytes Sample.env8 [98]).1 [[98]] :=
    .insert (.make Sample.f1pow_make) h
  refine C102_halves (r := fnv1 [98] % 2) (env := Sample.env8) Sample.env_small hh (by decide +kernel)
    (by decide +kernel) (by decide +kernel) ?_ (by decide +kernel) ?_
  · intro s hs
    rw [List.mem_singleton.1 hs]
    exact ⟨rfl, by decide +kernel⟩
  · decide +kernel

/-- The sequence of a key is not as long as the format wants: if the hash is a multiple of `2^j` it
repeats after `2^(63-j)` bits. -/
theorem C102_cycle (key : List U8) {j : ℕ} (h6 : 6 ≤ j) (h63 : j ≤ 63) (hd : 2 ^ j ∣ fnv1 key)
    (m n : ℕ) : dcsoProbe key m (n + 2 ^ (63 - j)) = dcsoProbe key m n := by
  unfold dcsoProbe
  rw [Nat.add_right_comm, dcsoChain_cycle h6 h63 (fnv1_lt key) hd]

/-- The hash `2^63` is mapped to itself: all bits are the same one. -/
theorem C102_fixed (n : ℕ) : dcsoChain (2 ^ 63) n = 2 ^ 63 := by
  induction n with
  | zero => decide +kernel
  | succ n ih => unfold dcsoChain; rw [ih]; norm_num

/-- The key of hash 0 with another last byte has the hash 128. -/
example (m n : ℕ) : dcsoProbe (zeroKey.take 8 ++ [0x52]) m (n + 2 ^ 56) =
    dcsoProbe (zeroKey.take 8 ++ [0x52]) m n :=
  C102_cycle _ (j := 7) (by norm_num) (by norm_num) (by decide +kernel) m n

/-- The bits are spread evenly: of the `2^64` hashes, the share whose `n`-th bit (from 1) is one of
`c` bits is `c / m`, up to `c + 59 (n + 1)` hashes. -/
theorem C102_spread (n m : ℕ) (hm : 0 < m) (on : ℕ → Bool) :
    {h | h < 2 ^ 64 ∧ on (dcsoChain h n % m) = true}.ncard
      ≤ countBelow m on * (2 ^ 64 / m + 1) + 59 * (n + 1) ∧
    countBelow m on * (2 ^ 64 / m)
      ≤ {h | h < 2 ^ 64 ∧ on (dcsoChain h n % m) = true}.ncard + 59 * (n + 1) :=
  chain_card n m hm on

/-- So the share of hashes a filter accepts is not above the share of bits set, up to rounding; with
one hash function it is this share. -/
theorem C102_share {env : Env} (hs : env.Small) {f : V1} (hf : V1.Reach env f)
    (hm : f.bitSize ≠ 0) (hk : f.nHash ≠ 0) :
    (∀ q, f.containsBytes q = .ok true ↔ fnv1 q ∈ f.hits) ∧
    f.hits.ncard ≤ countBelow f.bitSize.toNat (bitAt f.bitset) * (2 ^ 64 / f.bitSize.toNat + 1) + 118 ∧
    (f.nHash = 1 → countBelow f.bitSize.toNat (bitAt f.bitset) * (2 ^ 64 / f.bitSize.toNat)
      ≤ f.hits.ncard + 118) := by
  have hk0 := V1.toNat_pos hk
  obtain ⟨h1, h2⟩ := C102_spread 1 f.bitSize.toNat (V1.toNat_pos hm) (bitAt f.bitset)
  refine ⟨fun q => ?_, ?_, fun h => ?_⟩
  · rw [V1.containsBytes_eq (hf.wf hs) q hm]
    simp only [Res.ok.injEq, V1.allSet_iff]
    exact ⟨fun h => ⟨fnv1_lt q, h⟩, fun h => h.2⟩
  · have hsub : f.hits ⊆ {h | h < 2 ^ 64 ∧
        bitAt f.bitset (dcsoChain h 1 % f.bitSize.toNat) = true} :=
      fun x hx => ⟨hx.1, hx.2 0 hk0⟩
    exact (Set.ncard_le_ncard hsub
      ((Set.finite_lt_nat (2 ^ 64)).subset fun _ h => h.1)).trans h1
  · refine h2.trans (Nat.add_le_add_right (le_of_eq ?_) _)
    congr 1
    ext x
    refine and_congr_right fun _ => ⟨fun hx n hn => ?_, fun hx => hx 0 hk0⟩
    rw [h] at hn
    have : n = 0 := Nat.lt_one_iff.1 hn
    rw [this]; exact hx

example := C102_share Sample.env_small (.make Sample.f1_make) (by decide) (by decide)

/-- In a new filter with one bit set by `zeroKey`, at most `2^64 / m + 119` hashes are accepted. -/
example : (Sample.f1.insertBytes Sample.env zeroKey).1.hits.ncard ≤ 2 ^ 64 / 958 + 119 := by
  have h := (C102_share Sample.env_small
    (.insert zeroKey (.make Sample.f1_make) : V1.Reach Sample.env _)
    (by decide +kernel) (by decide +kernel)).2.1
  refine h.trans ?_
  decide +kernel

/-- Keys that cannot be told apart: zero bytes after `zeroKey`. -/
example : fnv1 (zeroKey ++ [0]) % 18446744073709551557 = fnv1 zeroKey % 18446744073709551557 := by
  decide +kernel

end Poppy
