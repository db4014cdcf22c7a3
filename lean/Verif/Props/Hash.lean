import Verif.Lemmas.V2
import Verif.Lemmas.Bytes
import Verif.Lemmas.Xorshift

/-! # Hashing, probe sequences and key types (C33 to C39) -/

namespace Poppy
open Spec

/-! ## C33 FNV-1 -/

/-- The v1 hash of some data is 64-bit FNV-1, fed in any number of pieces. -/
theorem C33_fnv1 (pieces : List (List U8)) :
    (pieces.foldl fnvWrite FNV_OFFSET).toNat = Spec.fnv1 pieces.flatten ∧
    (fnvHash pieces.flatten).toNat = Spec.fnv1 pieces.flatten := by
  refine ⟨?_, toNat_fnvHash _⟩
  rw [← toNat_fnvHash]
  congr 1
  have : ∀ s, pieces.foldl fnvWrite s = pieces.flatten.foldl fnvRound s := by
    induction pieces with
    | nil => intro s; rfl
    | cons p ps ih => intro s; rw [List.foldl_cons, fnvWrite_eq, ih, List.flatten_cons,
        List.foldl_append]
  rw [this, fnvHash, fnvWrite_eq]

-- test vectors of the code: "Hello, World!" (fnv.rs), also in pieces
example : fnvHash [72#8, 101#8, 108#8, 108#8, 111#8, 44#8, 32#8, 87#8, 111#8, 114#8, 108#8,
    100#8, 33#8] = 8889723880822884486#64 := by decide
example : fnvWrite (fnvWrite FNV_OFFSET [72#8, 101#8, 108#8, 108#8, 111#8, 44#8, 32#8, 87#8, 111#8])
    [114#8, 108#8, 100#8, 33#8] = 8889723880822884486#64 := by decide

/-! ## C34 v1 probes -/

/-- All values an iterator yields until its end (at most `fuel - 1`, otherwise `panic`). -/
def collect {σ α : Type} (next : σ → Res (Option α) × σ) : ℕ → σ → Res (List α)
  | 0, _ => .panic
  | fuel + 1, s =>
    match next s with
    | (.ok none, _) => .ok []
    | (.ok (some a), s) => (collect next fuel s).map (a :: ·)
    | (.err e, _) => .err e
    | (.panic, _) => .panic

/-- The fingerprint iterator of a filter of `m > 0` bits and `k` hash functions, on any key and
whatever was iterated before, yields exactly `k` positions, the ones of the DCSO format, all
below `m`. -/
theorem C34_v1_probes (fp : Fingerprint) (key : List U8) (hm : fp.m ≠ 0) :
    ∃ ps : List U64,
      collect Fingerprint.next (fp.count.toNat + 1) (fp.fingerprint key) = .ok ps ∧
      ps.length = fp.count.toNat ∧
      ps.map BitVec.toNat = (List.range fp.count.toNat).map (dcsoProbe key fp.m.toNat) ∧
      ∀ p ∈ ps, p.toNat < fp.m.toNat := by
  have hpos : 0 < fp.m.toNat := by
    rcases Nat.eq_zero_or_pos fp.m.toNat with h | h
    · exact absurd (BitVec.eq_of_toNat_eq h) hm
    · exact h
  have hmlt := fp.m.isLt
  have hlt : ∀ n, dcsoProbe key fp.m.toNat n < fp.m.toNat := fun n => Nat.mod_lt _ hpos
  have hnat : ∀ n, (BitVec.ofNat 64 (dcsoProbe key fp.m.toNat n)).toNat
      = dcsoProbe key fp.m.toNat n := fun n => by
    have := hlt n
    rw [BitVec.toNat_ofNat, Nat.mod_eq_of_lt (by omega)]
  have key' : ∀ (l n fuel : ℕ), n + l = fp.count.toNat → l < fuel →
      collect Fingerprint.next fuel (fpAt fp.count fp.m key n)
        = .ok ((List.range' n l).map (fun n => BitVec.ofNat 64 (dcsoProbe key fp.m.toNat n))) := by
    intro l
    induction l with
    | zero =>
      intro n fuel hn hf
      obtain ⟨fuel, rfl⟩ : ∃ k, fuel = k + 1 := ⟨fuel - 1, by omega⟩
      have : n = fp.count.toNat := by omega
      subst this
      simp [collect, fpAt_end]
    | succ l ih =>
      intro n fuel hn hf
      obtain ⟨fuel, rfl⟩ : ∃ k, fuel = k + 1 := ⟨fuel - 1, by omega⟩
      simp only [collect]
      rw [fpAt_next hm key (by omega)]
      simp only [ih (n + 1) fuel (by omega) (by omega), Res.map, List.range'_succ, List.map_cons]
  rw [fingerprint_eq _ _ key fp rfl rfl]
  refine ⟨_, key' fp.count.toNat 0 _ (by omega) (by omega), by simp, ?_, ?_⟩
  · simp only [List.map_map, List.range_eq_range', Function.comp_def, hnat]
  · intro p hp
    obtain ⟨n, _, rfl⟩ := List.mem_map.1 hp
    exact lt_of_eq_of_lt (hnat n) (hlt n)

-- the known answer of the code's own test (v1.rs, key "bar", 7 functions, 958505 bits)
example : (Fingerprint.new 7 958505).m ≠ 0 ∧
    collect Fingerprint.next 8 ((Fingerprint.new 7 958505).fingerprint [98#8, 97#8, 114#8])
      = .ok [20311#64, 36825#64, 412501#64, 835777#64, 658914#64, 853361#64, 307361#64] := by
  decide +kernel

/-! ## C35 short keys -/

/-- The key value of at most 8 bytes is their little-endian value. -/
theorem C35_short_key_value (wy : Wy) (s : List U8) (h : s.length ≤ 8) :
    ((Key.slice s).hashPop wy).toNat = leVal s := by
  have : ¬ 8 < s.length := by omega
  simp only [Key.hashPop, hashPopSlice, if_neg this, u64OfLe_append_zeros]
  exact toNat_u64OfLe h

/-- Short keys of equal length have different key values unless they are equal, whatever the
hash function. -/
theorem C35_short_key_injective (wy : Wy) (s t : List U8) (h : s.length ≤ 8)
    (hl : s.length = t.length) (he : (Key.slice s).hashPop wy = (Key.slice t).hashPop wy) :
    s = t := by
  apply leToNat_injective hl
  rw [leToNat_eq, leToNat_eq, ← C35_short_key_value wy s h, ← C35_short_key_value wy t (by omega),
    he]

/-- Two short keys have the same key value exactly when they are equal up to trailing zero
bytes. -/
theorem C35_short_key_collision (wy : Wy) (s t : List U8) (h : s.length ≤ 8) (ht : t.length ≤ 8) :
    (Key.slice s).hashPop wy = (Key.slice t).hashPop wy ↔
      s ++ List.replicate (8 - s.length) 0#8 = t ++ List.replicate (8 - t.length) 0#8 := by
  constructor
  · intro he
    apply leToNat_injective (by simp; omega)
    rw [leToNat_append_zeros, leToNat_append_zeros, leToNat_eq, leToNat_eq,
      ← C35_short_key_value wy s h, ← C35_short_key_value wy t ht, he]
  · intro he
    apply BitVec.eq_of_toNat_eq
    rw [C35_short_key_value wy s h, C35_short_key_value wy t ht, ← leToNat_eq, ← leToNat_eq,
      ← leToNat_append_zeros s (8 - s.length), he, leToNat_append_zeros]

/-- Hence no v2 filter distinguishes a short key from the same key followed by zero bytes (up to
8 bytes): both operations give the same results, for every filter state. -/
theorem C35_trailing_zeros_alias (env : Env) (f : V2) (s : List U8) (n : ℕ)
    (h : s.length + n ≤ 8) :
    f.insertBytes env (s ++ List.replicate n 0#8) = f.insertBytes env s ∧
    f.containsBytes env (s ++ List.replicate n 0#8) = f.containsBytes env s := by
  have hh : (Key.slice (s ++ List.replicate n 0#8)).hashPop env.wy
      = (Key.slice s).hashPop env.wy := by
    apply BitVec.eq_of_toNat_eq
    rw [C35_short_key_value _ _ (by simp; omega), C35_short_key_value _ _ (by omega),
      ← leToNat_eq, ← leToNat_eq, leToNat_append_zeros]
  constructor
  · simp only [V2.insertBytes, V2.insert, V2.buildIndexIter, IndexIterator.initWithHashable, hh]
  · simp only [V2.containsBytes, V2.contains, V2.buildIndexIter, IndexIterator.initWithHashable, hh]

-- two short keys of the same length with different values, and an aliasing pair
example (wy : Wy) : (Key.slice [1#8, 2#8]).hashPop wy = 513#64 ∧
    (Key.slice [2#8, 1#8]).hashPop wy = 258#64 ∧
    (Key.slice [1#8, 2#8, 0#8]).hashPop wy = 513#64 := ⟨rfl, rfl, rfl⟩

/-! ## C36 bucket hash -/

/-- The mixing of the key hash before choosing a bucket is a bijection on 64-bit values. -/
theorem C36_bucket_hash_bijective : Function.Bijective
    (fun h : U64 => IndexIterator.bucketHash ⟨true, h, 0, 0, 0⟩) := xorshiftStar_bijective

-- it is not the identity
example : IndexIterator.bucketHash ⟨true, 1#64, 0, 0, 0⟩ = 14229403333805649181#64 := by decide

/-! ## C37 v2 probes -/

/-- An index iterator prepared for a key and a filter with `k` hash functions, whatever its
previous state, yields exactly `k` positions: `(h + n*H + C(n+1,3)) mod 2^64 mod 32768`, where `h`
is the key hash and `H` the hash of its big-endian bytes.  All are bit indexes of a bucket. -/
theorem C37_v2_probes (wy : Wy) (it : IndexIterator) (key : Key) (k : U64) :
    ∃ ps : List U64,
      collect (IndexIterator.next wy BIT_SET_MOD) (k.toNat + 1)
        ((it.initWithHashable wy key).setCount k) = .ok ps ∧
      ps.length = k.toNat ∧
      ps.map BitVec.toNat = (List.range k.toNat).map
        (poppyProbe (key.hashPop wy).toNat
          (wy [(Spec.le 8 (key.hashPop wy).toNat).reverse]).toNat) ∧
      ∀ p ∈ ps, p.toNat < BitSet.bitSize BUCKET_SIZE := by
  have hnat : ∀ n, (BitVec.ofNat 64 (poppyProbe (key.hashPop wy).toNat
      (hash2 wy (key.hashPop wy)).toNat n)).toNat
      = poppyProbe (key.hashPop wy).toNat (hash2 wy (key.hashPop wy)).toNat n := fun n =>
    toNat_ofNat_of_lt (poppyProbe_lt _ _ n) (by norm_num)
  have key' : ∀ (l n fuel : ℕ), n + l = k.toNat → l < fuel →
      collect (IndexIterator.next wy BIT_SET_MOD) fuel (itAt wy (key.hashPop wy) k n)
        = .ok ((List.range' n l).map (fun n => BitVec.ofNat 64
          (poppyProbe (key.hashPop wy).toNat (hash2 wy (key.hashPop wy)).toNat n))) := by
    intro l
    induction l with
    | zero =>
      intro n fuel hn hf
      obtain ⟨fuel, rfl⟩ : ∃ k, fuel = k + 1 := ⟨fuel - 1, by omega⟩
      have : n = k.toNat := by omega
      subst this
      simp [collect, itAt_end]
    | succ l ih =>
      intro n fuel hn hf
      obtain ⟨fuel, rfl⟩ : ∃ k, fuel = k + 1 := ⟨fuel - 1, by omega⟩
      simp only [collect]
      rw [itAt_next wy _ k (by omega)]
      simp only [ih (n + 1) fuel (by omega) (by omega), Res.map, List.range'_succ, List.map_cons]
  have hH : (wy [(Spec.le 8 (key.hashPop wy).toNat).reverse])
      = hash2 wy (key.hashPop wy) := by
    simp [hash2, digest, u64ToBe, u64ToLe, natToLe_eq]
  rw [hH]
  refine ⟨_, key' k.toNat 0 _ (by omega) (by omega), by simp, ?_, ?_⟩
  · simp only [List.map_map, List.range_eq_range', Function.comp_def, hnat]
  · intro p hp
    obtain ⟨n, _, rfl⟩ := List.mem_map.1 hp
    rw [hnat]
    simpa [BitSet.bitSize, BUCKET_SIZE] using poppyProbe_lt _ _ n

/-- With at most one hash function the second hash is never used: the result does not depend on
the hash function beyond the key hash. -/
theorem C37_single_probe (wy wy' : Wy) (h k : U64) (hk : k.toNat ≤ 1) :
    collect (IndexIterator.next wy BIT_SET_MOD) 2 ⟨true, h, 0, 0, k⟩
      = collect (IndexIterator.next wy' BIT_SET_MOD) 2 ⟨true, h, 0, 0, k⟩ := by
  have : k = 0#64 ∨ k = 1#64 := by
    rcases Nat.le_one_iff_eq_zero_or_eq_one.1 hk with h | h
    · left; exact BitVec.eq_of_toNat_eq h
    · right; exact BitVec.eq_of_toNat_eq h
  rcases this with rfl | rfl <;> simp [collect, IndexIterator.next, isPowerOfTwo_BIT_SET_MOD]

example : collect (IndexIterator.next (fun _ => 1000#64) BIT_SET_MOD) 5
    ⟨true, 40000#64, 0, 0, 4#64⟩ = .ok [7232#64, 8232#64, 9233#64, 10236#64] := by decide

/-! ## C38 key types -/

/-- The bytes of a key of a byte-like type. -/
def Key.bytes? : Key → Option (List U8)
  | .slice b | .vec b | .str b | .string b => some b
  | _ => none

theorem hashPop_of_bytes {k : Key} {b : List U8} (h : k.bytes? = some b) (wy : Wy) :
    k.hashPop wy = hashPopSlice wy b := by
  cases k <;> simp_all [Key.bytes?, Key.hashPop]

/-- `&[u8]`, `Vec<u8>`, `&str` and `String` keys with the same bytes, and `insert_bytes` /
`contains_bytes` (also in their former implementation), are interchangeable on every filter. -/
theorem C38_byte_keys (env : Env) (f : V2) (k : Key) (b : List U8) (h : k.bytes? = some b) :
    f.insert env k = f.insertBytes env b ∧ f.contains env k = f.containsBytes env b ∧
    f.insert env k = f.insertBytesOld env b ∧ f.contains env k = f.containsBytesOld env b := by
  have h1 : V2.buildIndexIter env k = V2.buildIndexIter env (.slice b) := by
    simp only [V2.buildIndexIter, IndexIterator.initWithHashable, hashPop_of_bytes h,
      show (Key.slice b).hashPop env.wy = hashPopSlice env.wy b from rfl]
  have h2 : ∀ g : V2, (f.indexIter.initWithSlice env.wy b).setCount g.nHashBuck
      = (V2.buildIndexIter env (.slice b)).setCount g.nHashBuck := fun g => rfl
  have h3 : (f.indexIter.initWithSlice env.wy b).isInit
      = (V2.buildIndexIter env (.slice b)).isInit := rfl
  refine ⟨?_, ?_, ?_, ?_⟩
  · simp only [V2.insert, V2.insertBytes, h1]
  · simp only [V2.contains, V2.containsBytes, h1]
  · simp only [V2.insert, V2.insertBytesOld, h1, V2.insertIter, h2, h3]
  · simp only [V2.contains, V2.containsBytesOld, h1, V2.containsIter, h2, h3]

/-- The number of bytes of the integer types. -/
def intBytes (t : IntTy) : ℕ :=
  if t ∈ [.u8, .i8] then 1 else if t ∈ [.u16, .i16] then 2 else if t ∈ [.u32, .i32] then 4
  else if t ∈ [.u128, .i128] then 16 else 8

theorem size_eq (t : IntTy) : t.size = intBytes t := by cases t <;> rfl

/-- An integer key is hashed through its little-endian two's complement bytes: a signed and an
unsigned integer of the same width with the same bits are the same key. -/
theorem C38_int_keys (wy : Wy) (t : IntTy) (v : ℤ) :
    (Key.int t v).hashPop wy
      = wy [Spec.le (intBytes t) (v % (2 ^ (8 * intBytes t) : ℤ)).toNat] := by
  rw [← size_eq]
  simp only [Key.hashPop, IntTy.bytes, natToLe_eq, BitVec.toNat_ofInt]
  norm_num

/-- Keys with equal hash values are indistinguishable. -/
theorem same_hashPop {env : Env} {f : V2} {k k' : Key} (h : k.hashPop env.wy = k'.hashPop env.wy) :
    f.insert env k = f.insert env k' ∧ f.contains env k = f.contains env k' := by
  have h1 : V2.buildIndexIter env k = V2.buildIndexIter env k' := by
    simp only [V2.buildIndexIter, IndexIterator.initWithHashable, h]
  exact ⟨by simp only [V2.insert, h1], by simp only [V2.contains, h1]⟩

/-- `None` is the key `0isize`; a wrapper around an integer is the key of that integer; `Some(x)` is
the key of a type that hashes `1isize` and then `x`, in this order. -/
theorem C38_option_keys (env : Env) (f : V2) (t : IntTy) (v : ℤ) (w : List (List U8)) :
    (f.insert env .optNone = f.insert env (.int .isize 0) ∧
      f.contains env .optNone = f.contains env (.int .isize 0)) ∧
    (f.insert env (.optSome w) = f.insert env (.custom (Spec.le 8 1 :: w)) ∧
      f.contains env (.optSome w) = f.contains env (.custom (Spec.le 8 1 :: w))) ∧
    (f.insert env (.custom [Spec.le (intBytes t) (v % (2 ^ (8 * intBytes t) : ℤ)).toNat])
        = f.insert env (.int t v) ∧
      f.contains env (.custom [Spec.le (intBytes t) (v % (2 ^ (8 * intBytes t) : ℤ)).toNat])
        = f.contains env (.int t v)) ∧
    (Key.custom w).hashPop env.wy = env.wy w := by
  refine ⟨same_hashPop ?_, same_hashPop ?_, same_hashPop ?_, rfl⟩
  · rw [C38_int_keys]
    simp only [Key.hashPop, natToLe_eq]
    rfl
  · simp only [Key.hashPop, natToLe_eq]
  · rw [C38_int_keys]
    rfl

-- `Some(5u16)` is not the key `5u16`
example : (Key.optSome [IntTy.bytes .u16 5]).hashPop (fun w => BitVec.ofNat 64 w.length) ≠
    (Key.int .u16 5).hashPop (fun w => BitVec.ofNat 64 w.length) := by decide

example : Key.bytes? (.str [104#8, 105#8]) = Key.bytes? (.vec [104#8, 105#8]) := rfl
example (wy : Wy) : (Key.int .i16 (-2)).hashPop wy = (Key.int .u16 65534).hashPop wy ∧
    (Key.int .i16 (-2)).hashPop wy = wy [[254#8, 255#8]] := by
  rw [C38_int_keys, C38_int_keys]; exact ⟨rfl, rfl⟩

/-! ## C39 prepared iterators -/

/-- Whatever the previous state and count of an iterator, once initialised with some data it gives
the results of `insert` and `contains` of that data, on every filter.  (Iterators are passed by
value, hence can be reused.) -/
theorem C39_prepared_iter (env : Env) (f : V2) (it : IndexIterator) (data : Key) :
    f.insertIter env (it.initWithHashable env.wy data) = f.insert env data ∧
    (f.containsIter env (it.initWithHashable env.wy data)).unwrap = f.contains env data ∧
    f.containsIter env (it.initWithHashable env.wy data)
      = f.containsIter env (V2.buildIndexIter env data) := by
  have h2 : (it.initWithHashable env.wy data).setCount f.nHashBuck
      = (V2.buildIndexIter env data).setCount f.nHashBuck := rfl
  have h3 : (it.initWithHashable env.wy data).isInit = (V2.buildIndexIter env data).isInit := rfl
  refine ⟨?_, ?_, ?_⟩
  · simp only [V2.insert, V2.insertIter, h2, h3]
  · simp only [V2.contains, V2.containsIter, h2, h3]
  · simp only [V2.containsIter, h2, h3]

/-- An iterator never initialised, or advanced by at least one step, is refused and the filter is
unchanged. -/
theorem C39_uninit_refused (env : Env) (f : V2) (it : IndexIterator) :
    (it.isInit = false → f.insertIter env it = (f, .err .uninitIter) ∧
      f.containsIter env it = .err .uninitIter) ∧
    IndexIterator.new.isInit = false ∧
    (∀ p it', it.next env.wy BIT_SET_MOD = (.ok (some p), it') → it'.isInit = false) := by
  refine ⟨fun h => ?_, rfl, fun p it' h => ?_⟩
  · simp [V2.insertIter, V2.containsIter, h]
  · have hlt : it.i < it.count := by
      by_contra hn
      simp [IndexIterator.next, hn] at h
    have hi : it'.i = it.i + 1 := by
      unfold IndexIterator.next at h
      rw [if_pos hlt] at h
      simp only [isPowerOfTwo_BIT_SET_MOD, if_true] at h
      rw [Prod.mk.injEq] at h
      rw [← h.2]
      by_cases h0 : 0#64 < it.i <;> by_cases h1 : it.i = 1#64 <;> simp [h0, h1]
    have : it'.i ≠ 0 := by
      intro h0
      rw [hi] at h0
      have h1 := congrArg BitVec.toNat h0
      rw [BitVec.toNat_add, show (1 : U64).toNat = 1 from rfl, show (0 : U64).toNat = 0 from rfl]
        at h1
      rw [BitVec.lt_def] at hlt
      have := it.count.isLt
      omega
    simp only [IndexIterator.isInit, Bool.and_eq_false_iff]
    right
    simpa using this

-- an advanced iterator exists
example : (IndexIterator.next (fun _ => 7#64) BIT_SET_MOD ⟨true, 5, 0, 0, 2⟩).1
    = .ok (some 5) := by decide

end Poppy
