import Verif.Lemmas.PyCallEffects
import Verif.Lemmas.F64Bits
import Verif.Props.PyPrograms
import Verif.Props.Constructor

/-!
# C97 Calls from Python

`Verif/AbstractPy.lean` says what calls from Python do, for arguments of every type.
-/

namespace Poppy

open Spec Abs Cli Py

/-- Every Python program gives the values and raises the exceptions of the abstract machine, and
leaves the objects and files that it leaves. -/
theorem C97_program {env : Env} (hs : env.Small) (w : World) (p : List PyCall) :
    pyRun (Bloom.machine env) near ⟨[], w⟩ p =
      ((Heap.run env ⟨[], w⟩ p).1.view, (Heap.run env ⟨[], w⟩ p).2) := by
  have key : ∀ h : Heap Bloom, h.Reach env → pyRun (Bloom.machine env) near h.view p =
      ((h.run env p).1.view, (h.run env p).2) := by
    induction p with
    | nil => intro h _; rfl
    | cons c p ih =>
      intro h hr
      obtain ⟨h1, h2⟩ := call_agree hs hr c
      simp only [pyRun, Heap.run, h2]
      rw [ih _ h1]
  exact key ⟨[], w⟩ (fun f hf => by cases hf)

/-- Whole numbers given as probability are taken as the nearest `f64`, exactly up to 2^53, and raise
`OverflowError` if there is none. -/
theorem C97_near (n : ℤ) :
    (|(n : ℚ)| < 2 ^ 1024 - 2 ^ 970 → ∃ b x, near n = some b ∧ FVal.ofBits b = .fin x ∧
      ∀ c y, FVal.ofBits c = .fin y → |n - x| ≤ |n - y|) ∧
    (2 ^ 1024 - 2 ^ 970 ≤ |(n : ℚ)| → near n = none) ∧
    (|n| ≤ 2 ^ 53 → ∃ b, near n = some b ∧ FVal.ofBits b = .fin n) := by
  have hx : |(n : ℚ)| < 2 ^ 1024 - 2 ^ 970 →
      near n = some (FVal.bits (.fin (rndQ (n : ℚ)))) ∧
      FVal.ofBits (FVal.bits (.fin (rndQ (n : ℚ)))) = .fin (rndQ (n : ℚ)) := by
    intro h
    obtain ⟨h1, h2, h3⟩ := rnd_finite h
    exact ⟨by unfold near; rw [h1], ofBits_bits_of_isF h2 h3⟩
  refine ⟨fun h => ?_, fun h => ?_, fun h => ?_⟩
  · obtain ⟨h1, h2⟩ := hx h
    refine ⟨_, _, h1, h2, fun c y hc => ?_⟩
    have hn := nearest (n : ℚ) (isF_of_ofBits hc).1
    rw [Rat.cast_id, Rat.cast_id] at hn
    exact hn
  · unfold near
    rcases le_abs'.1 h with h | h
    · rw [rnd_ninf h]
    · rw [rnd_pinf h]
  · have hq : |(n : ℚ)| ≤ 2 ^ 53 := by exact_mod_cast h
    have hlt : |(n : ℚ)| < 2 ^ 1024 - 2 ^ 970 := by
      refine hq.trans_lt ?_
      have e1 : (2 : ℚ) ^ 1024 = 2 ^ 54 * 2 ^ 970 := pow_add 2 54 970
      have e2 : (1 : ℚ) ≤ 2 ^ 970 := one_le_pow₀ (by norm_num)
      rw [e1]
      clear e1 hq h hx
      generalize (2 : ℚ) ^ 970 = t at *
      linarith only [e2]
    obtain ⟨h1, h2⟩ := hx hlt
    have e : rndQ (n : ℚ) = n := by
      have := rndQ_of_isF (K := ℚ) (isF_int h)
      rwa [Rat.cast_id] at this
    rw [e] at h1 h2
    exact ⟨_, h1, h2⟩

/-- A call that raises changes nothing, unless it panics, or a file could not be written completely. -/
theorem C97_refused {env : Env} (hs : env.Small) {h : Heap Bloom} (hr : ∀ f ∈ h.objs, f.Reach env)
    (c : PyCall) (e : Exc) (hc : (h.call env c).2 = .raised e) (he : e ≠ .panicException) :
    (h.call env c).1 = h ∨
      (∃ i path x, c = .save i path ∧ e = .valueError x) ∧ (h.call env c).1.objs = h.objs := by
  by_cases hsave : ∃ i p, c = .save i p
  · obtain ⟨i, p, rfl⟩ := hsave
    have hq : h.call env (.save i p) = onObj h i fun f => (Heap.mk h.objs (Py.save h.world f p).1,
        (Py.save h.world f p).2.out fun _ => .none) := rfl
    rw [hq] at hc ⊢
    unfold onObj at hc ⊢
    cases hi : h.objs[i]? with
    | none => exact .inl rfl
    | some f =>
      rw [hi] at hc
      show Heap.mk h.objs (Py.save h.world f p).1 = h ∨ _ ∧ h.objs = h.objs
      obtain ⟨h1, h2, -⟩ := C62_save_fails h.world f p
      have hc : (Py.save h.world f p).2.out (fun _ => Out.none) = .raised e := hc
      cases hs : (Py.save h.world f p).2 with
      | ok a => rw [hs] at hc; cases hc
      | valueError x => rw [hs] at hc; cases hc; exact .inr ⟨⟨i, p, x, rfl, rfl⟩, rfl⟩
      | osError x => rw [h2 (h1.1 ⟨x, hs⟩)]; exact .inl rfl
      | panic => rw [hs] at hc; cases hc; exact absurd rfl he
  · push Not at hsave
    exact .inl (call_quiet hs hr c hsave e hc he)

/-- `BloomFilter.with_params(v, c, p, o)` with integers and a float: what it raises, and what the
getters give. -/
theorem C97_constructor {env : Env} (hs : env.Small) (h : Heap Bloom) (v c o : ℤ) (p : F64) :
    (¬ (0 ≤ v ∧ v < 256 ∧ 0 ≤ c ∧ c < 2 ^ 64 ∧ 0 ≤ o ∧ o < 256) →
      h.call env (.withParams [.int v, .int c, .float p, .int o]) = (h, .raised .overflowError)) ∧
    (∀ h' out, h.call env (.withParams [.int v, .int c, .float p, .int o]) = (h', out) →
      0 ≤ v → v < 256 → 0 ≤ c → c < 2 ^ 64 → 0 ≤ o → o < 256 →
      ((∃ e, out = .raised (.valueError e)) ↔
        ¬ ((v = 1 ∨ v = 2) ∧ o ≤ 3 ∧ 2 ^ 52 ≤ p.toNat ∧ p.toNat ≤ 1023 * 2 ^ 52)) ∧
      ∀ i, out = .filter i →
        i = h.objs.length ∧ h'.world = h.world ∧ h'.objs.take i = h.objs ∧
        (h'.call env (.version i)).2 = .int v.toNat ∧ (h'.call env (.capacity i)).2 = .int c.toNat ∧
        (h'.call env (.fpp i)).2 = .float p ∧ (h'.call env (.countEstimate i)).2 = .int 0) := by
  rw [withParams_call]
  constructor
  · intro hn
    by_cases hv : 0 ≤ v ∧ v < 2 ^ 8
    · rw [natArg_int hv.1 hv.2]
      by_cases hc : 0 ≤ c ∧ c < 2 ^ 64
      · rw [natArg_int hc.1 hc.2]
        by_cases ho : 0 ≤ o ∧ o < 2 ^ 8
        · exact absurd ⟨hv.1, hv.2, hc.1, hc.2, ho.1, ho.2⟩ hn
        · rw [natArg_int_err ho]; rfl
      · rw [natArg_int_err hc]; rfl
    · rw [natArg_int_err hv]; rfl
  · intro h' out hcall hv0 hv hc0 hc ho0 ho
    rw [natArg_int hv0 hv, natArg_int hc0 hc, natArg_int ho0 ho] at hcall
    have hcall : returnsObj h (.ofRes (madeOf env v.toNat c.toNat p o.toNat)) = (h', out) := hcall
    obtain ⟨v, rfl⟩ := Int.eq_ofNat_of_zero_le hv0
    obtain ⟨c, rfl⟩ := Int.eq_ofNat_of_zero_le hc0
    obtain ⟨o, rfl⟩ := Int.eq_ofNat_of_zero_le ho0
    have hv : v < 256 := by exact_mod_cast hv
    have hc : c < 2 ^ 64 := by exact_mod_cast hc
    simp only [Int.toNat_natCast] at hcall ⊢
    unfold madeOf at hcall
    have hvb : ∀ n, n < 256 → (BitVec.ofNat 8 v = BitVec.ofNat 8 n ↔ v = n) := by
      intro n hn
      rw [← BitVec.toNat_inj, BitVec.toNat_ofNat, BitVec.toNat_ofNat]
      omega
    have hb : ∀ e, Bloom.withVersionCapacityOpt env (BitVec.ofNat 8 v) (BitVec.ofNat 64 c) p
        (levelOf o) = .err e ↔ _ := C44_bloom env _ _ p _
    have herr : (∃ e, Bloom.withVersionCapacityOpt env (BitVec.ofNat 8 v) (BitVec.ofNat 64 c) p
        (levelOf o) = .err e) ↔
        ¬ ((v = 1 ∨ v = 2) ∧ 2 ^ 52 ≤ p.toNat ∧ p.toNat ≤ 1023 * 2 ^ 52) := by
      simp only [hb, ne_eq, hvb 1 (by decide), hvb 2 (by decide)]
      by_cases h1 : v = 1
      · simp [h1]
      · by_cases h2 : v = 2 <;> simp [h1, h2]
    have c1 : ((v : ℤ) = 1 ∨ (v : ℤ) = 2) ↔ (v = 1 ∨ v = 2) := by omega
    rw [c1]
    by_cases ho4 : o < 4
    · rw [if_pos ho4] at hcall
      have c2 : (o : ℤ) ≤ 3 := by omega
      simp only [c2, true_and]
      rw [← herr]
      cases hm : Bloom.withVersionCapacityOpt env (BitVec.ofNat 8 v) (BitVec.ofNat 64 c) p
          (levelOf o) with
      | ok f =>
        rw [hm] at hcall
        obtain ⟨-, f1, f2, f3, -⟩ := Bloom.new_spec hs hm
        have f4 := C44_version env _ _ _ _ _ hm
        injection hcall with e1 e2
        subst e1 e2
        refine ⟨by simp, fun i hi => ?_⟩
        injection hi with hi
        subst hi
        have hget : (h.objs ++ [f])[h.objs.length]? = some f := by simp
        refine ⟨rfl, rfl, List.take_left .., ?_⟩
        simp only [Heap.call, onObj, hget, Py.version, Py.capacity, Py.fpp, Py.countEstimate, f1, f2,
          f3, f4, BitVec.toNat_ofNat]
        refine ⟨?_, ?_, trivial, rfl⟩
        · rw [Nat.mod_eq_of_lt hv]
        · rw [Nat.mod_eq_of_lt hc]
      | err e =>
        rw [hm] at hcall
        injection hcall with e1 e2
        subst e1 e2
        exact ⟨⟨fun _ => ⟨e, rfl⟩, fun _ => ⟨e, rfl⟩⟩, fun i hi => by cases hi⟩
      | panic =>
        rw [hm] at hcall
        injection hcall with e1 e2
        subst e1 e2
        exact ⟨by simp [PyRes.out, PyRes.ofRes], fun i hi => by cases hi⟩
    · rw [if_neg ho4] at hcall
      have c2 : ¬ (o : ℤ) ≤ 3 := by omega
      injection hcall with e1 e2
      subst e1 e2
      exact ⟨⟨fun _ hx => c2 hx.2.1, fun _ => ⟨_, rfl⟩⟩, fun i hi => by cases hi⟩

/-- A text is its UTF-8 encoding. -/
theorem C97_text {env : Env} (h : Heap Bloom) (i : ℕ) (s : List Char) :
    h.call env (.insertStr i [.str (s.map Char.toNat)]) =
      h.call env (.insertBytes i [.bytes (s.flatMap utf8)]) ∧
    h.call env (.containsStr i [.str (s.map Char.toNat)]) =
      h.call env (.containsBytes i [.bytes (s.flatMap utf8)]) := by
  have h1 := fun f => C62_str env f (String.ofList s)
  rw [String.toList_ofList] at h1
  constructor
  · show (onObj h i fun f => withArgs h (extractStr (.str (s.map Char.toNat))) fun s =>
      changes h i .bool (Py.insertStr env f s)) = _
    rw [extractStr_chars]
    show (onObj h i fun f => changes h i .bool (Py.insertStr env f (String.ofList s))) =
      onObj h i fun f => changes h i .bool (Py.insertBytes env f _)
    simp only [(h1 _).1]
  · show (onObj h i fun f => withArgs h (extractStr (.str (s.map Char.toNat))) fun s =>
      (h, (Py.containsStr env f s).out .bool)) = _
    rw [extractStr_chars]
    show (onObj h i fun f => (h, (Py.containsStr env f (String.ofList s)).out .bool)) =
      onObj h i fun f => (h, (Py.containsBytes env f _).out .bool)
    simp only [(h1 _).2]

/-- A key whose insertion did not raise is contained from then on, whatever calls follow. -/
theorem C97_members {env : Env} (hs : env.Small) (w : World) (before after : List PyCall) (i : ℕ)
    (k : List U8) {h h' : Heap Bloom} {out : List Out} {b : Bool}
    (hb : (Heap.run env ⟨[], w⟩ before) = (h, out))
    (hbits : ∀ f, h.objs[i]? = some f → f.HasBits)
    (hi : h.call env (.insertBytes i [.bytes k]) = (h', .bool b)) :
    ((h'.run env after).1.call env (.containsBytes i [.bytes k])).2 = .bool true := by
  have hr : h.Reach env := by
    have := (run_le hs (h := ⟨[], w⟩) (fun f hf => by cases hf) before).1
    rwa [hb] at this
  have hr' : h'.Reach env := by
    have := (call_agree hs hr (.insertBytes i [.bytes k])).1
    rwa [hi] at this
  have hi : (onObj h i fun f => changes h i .bool (Py.insertBytes env f k)) = (h', .bool b) := hi
  unfold onObj at hi
  cases hf : h.objs[i]? with
  | none => rw [hf] at hi; cases hi
  | some f =>
    rw [hf] at hi
    have hi : (Heap.mk (h.objs.set i (f.insertBytes env k).1) h.world,
        (PyRes.ofRes (f.insertBytes env k).2).out Out.bool) = (h', .bool b) := hi
    have hins : (f.insertBytes env k).2 = .ok b := by
      cases hx : (f.insertBytes env k).2 <;> rw [hx] at hi <;> cases hi
      rfl
    have hok : f.AllOk env [k] := ⟨⟨b, hins⟩, trivial⟩
    have hk : (f.insertBytes env k).1.containsBytes env k = .ok true :=
      C52_fill_contains hs (hr f (List.mem_of_getElem? hf)) (hbits f hf)
        (Bloom.fill_of_allOk hok) k (by simp)
    have hg : h'.objs[i]? = some (f.insertBytes env k).1 := by
      rw [← (Prod.mk.inj hi).1]
      exact List.getElem?_set_self (List.getElem?_eq_some_iff.1 hf).1
    obtain ⟨g, hg', e⟩ := (run_le hs hr' after).2 i _ hg
    show (onObj _ i fun f => (_, (Py.containsBytes env f k).out .bool)).2 = _
    unfold onObj
    rw [hg']
    show (PyRes.ofRes (g.containsBytes env k)).out .bool = _
    rw [e.contains k hk]
    rfl

/-! A program with wrong arguments and a text with a surrogate. -/

def Sample.pyCalls : List PyCall :=
  [.withVersion [.int 1, .int 100, .float Sample.p001], .withVersion [.int 257, .int 100, .float Sample.p001],
    .withVersion [.bool true, .bytes [], .float Sample.p001], .withParams [.int 1, .int 5, .int 1, .int 4],
    .insertBytes 0 [.bytes [1#8]], .insertBytes 0 [.str [65]], .insertStr 0 [.str [0xD800]],
    .insertStr 0 [.str [0x1F600]], .containsBytes 0 [.bytes [0xF0#8, 0x9F#8, 0x98#8, 0x80#8]],
    .unionMerge 0 [.filter 0], .unionMerge 0 [.none], .insertBytes 7 [], .save 0 "out", .load "out",
    .containsBytes 1 [.bytes [1#8]], .loads [.list [.int 1, .int 256]]]

example : (Heap.run Sample.env ⟨[], Sample.world⟩ Sample.pyCalls).2 =
    [.filter 0, .raised .overflowError, .raised .typeError, .raised (.valueError (.optLevel 4)),
      .bool true, .raised .typeError, .raised .unicodeEncodeError,
      .bool true, .bool true,
      .raised .runtimeError, .raised .typeError, .raised .nameError, .none, .filter 1,
      .bool true, .raised .overflowError] := by
  decide +kernel

example : near (2 ^ 53 + 1) = near (2 ^ 53) ∧ near (-3) = some 0xC008000000000000#64 ∧
    near (2 ^ 1024) = none ∧ near (-2 ^ 1024) = none := by decide +kernel

end Poppy
