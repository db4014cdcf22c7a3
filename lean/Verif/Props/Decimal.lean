import Verif.Lemmas.DecimalText
import Verif.Props.Args
import Verif.Props.Misc
import Verif.Props.CliCommands

/-!
# Numbers in texts

C96: what the tool prints about a filter can be read back, and gives the same filter parameters.
-/

namespace Poppy

open Cli
open Spec.Line (Decimal Numeral Dashed Means Words Fine Reads sizeUnit timeUnit)

/-! ## C96 printed numbers -/

/-- Integers are printed in decimal digits without leading zeros, and read back as they were. -/
theorem C96_integers (x : U64) : ∃ s, stdFmt.u64 x = String.ofList s ∧ Decimal s x.toNat ∧
    (∀ t, s = '0' :: t → t = []) ∧ readUsize s = some x := by
  refine ⟨_, rfl, decimal_toDigits _, ?_, readUsize_toDigits x⟩
  generalize x.toNat = n
  induction n using Nat.strong_induction_on with
  | _ n ih =>
    intro t h
    rw [Nat.toDigits_eq_if (by norm_num)] at h
    split_ifs at h with hn
    · injection h with _ h
      exact h.symm
    · exfalso
      rcases hd : Nat.toDigits 10 (n / 10) with _ | ⟨c, s⟩
      · exact Nat.toDigits_ne_nil hd
      · rw [hd, List.cons_append] at h
        injection h with h1 h2
        subst h1
        have hs := ih (n / 10) (by omega) s hd
        subst hs
        have hv := digitsValue_toDigits (n / 10)
        rw [hd, show digitsValue ['0'] = 0 by decide] at hv
        omega

/-- A decimal number is read as the nearest `f64`, or as infinity if it is too large. -/
theorem C96_nearest {s : Text} {q : ℚ} (h : Numeral s q) : ∃ b, readF64 s = some b ∧
    (q < 2 ^ 1024 - 2 ^ 970 → ∃ x, FVal.ofBits b = .fin x ∧
      ∀ c y, FVal.ofBits c = .fin y → |q - x| ≤ |q - y|) ∧
    (2 ^ 1024 - 2 ^ 970 ≤ q → FVal.ofBits b = .pinf) := by
  have h0 := numeral_nonneg h
  have h1 : 0 ≤ rndQ q := le_rndQ q isF_zero (by simpa using h0)
  refine ⟨_, readF64_numeral h, fun hlt => ?_, fun hge => ?_⟩
  · rw [ofBits_bits_rnd h0]
    have hlt' : rndQ q < f64Huge := by
      by_contra hc
      push Not at hc
      have hF : IsF (f64Huge - 2 ^ 971) := by
        refine ⟨2 ^ 53 - 1, 971, by norm_num, by norm_num, ?_⟩
        have e1 : f64Huge = 2 ^ 53 * 2 ^ 971 := pow_add 2 53 971
        have e2 : (2 : ℚ) ^ (971 : ℤ) = 2 ^ 971 := zpow_natCast 2 971
        rw [e1, e2]
        generalize (2 : ℚ) ^ 971 = t
        norm_num
        ring
      have hn := nearest q hF
      rw [Rat.cast_id, Rat.cast_id] at hn
      have e : (2 : ℚ) ^ 971 = 2 * 2 ^ 970 := pow_succ' 2 970
      have hp : (0 : ℚ) < 2 ^ 970 := by positivity
      unfold f64Huge at hc hn
      rw [e] at hn
      clear e hF h1 h0
      generalize (2 : ℚ) ^ 970 = t at *
      generalize (2 : ℚ) ^ 1024 = u at *
      generalize rndQ q = r at *
      rw [abs_of_nonpos (by linarith)] at hn
      rcases abs_cases (q - (u - 2 * t)) with ⟨h1, _⟩ | ⟨h1, _⟩ <;> rw [h1] at hn <;> linarith
    refine ⟨rndQ q, rnd_of_rndQ rfl (by rwa [abs_of_nonneg h1]), fun c y hy => ?_⟩
    have := nearest q (isF_of_ofBits hy).1
    simpa using this
  · rw [ofBits_bits_rnd h0]
    unfold rnd
    have h2 : f64Huge ≤ rndQ ((2 : ℚ) ^ 1024 - 2 ^ 970) := by decide +kernel
    have : f64Huge ≤ rndQ q := h2.trans (rndQ_mono hge)
    simp only
    rw [if_pos this]

/-- The three default values of the command line. -/
theorem C96_defaults : Spec.Line.ReadSpec readF64 :=
  ⟨by decide +kernel, by decide +kernel, by decide +kernel⟩

/-- What is printed for an `f64` is read as the same `f64`, bit by bit (except that all NaN are
printed alike). -/
theorem C96_back (b : F64) (hz : b ≠ 0x8000000000000000#64) :
    ∃ s, stdFmt.f64 (FVal.ofBits b) = String.ofList s ∧ (FVal.ofBits b ≠ .nan → readF64 s = some b) ∧
      (FVal.ofBits b = .nan → ∃ c, readF64 s = some c ∧ FVal.ofBits c = .nan) := by
  refine ⟨_, rfl, fun hn => ?_, fun hn => ?_⟩
  · cases h : FVal.ofBits b with
    | nan => exact absurd h hn
    | fin q =>
      obtain ⟨h1, h2⟩ := isF_of_ofBits h
      rw [readF64_f64Text h1 h2, bits_ofBits h hz]
    | pinf =>
      rw [ofBits_eq] at h
      split at h
      · rename_i he
        split at h
        · rename_i hm
          split at h
          · cases h
          · rename_i hs
            rw [toNat_sign] at hs
            have hb : b = 0x7FF0000000000000#64 := by
              apply BitVec.eq_of_toNat_eq
              have e : (0x7FF0000000000000#64).toNat = 2047 * 2 ^ 52 := rfl
              rw [e]
              have := b.isLt
              simp only [decide_eq_true_eq, not_le] at hs
              omega
            rw [hb]
            decide +kernel
        · cases h
      · cases h
    | ninf =>
      rw [ofBits_eq] at h
      split at h
      · rename_i he
        split at h
        · rename_i hm
          split at h
          · rename_i hs
            rw [toNat_sign] at hs
            have hb : b = 0xFFF0000000000000#64 := by
              apply BitVec.eq_of_toNat_eq
              have e : (0xFFF0000000000000#64).toNat = 4095 * 2 ^ 52 := rfl
              rw [e]
              have := b.isLt
              simp only [decide_eq_true_eq] at hs
              omega
            rw [hb]
            decide +kernel
          · cases h
        · cases h
      · cases h
  · rw [hn]
    exact ⟨0x7FF8000000000000#64, by decide +kernel, by decide +kernel⟩

/-- The text of a positive number has at most 17 digits apart from zeros at its ends; no decimal
number with fewer decimals is read as this number, and of those with as many none is nearer. -/
theorem C96_shortest {b : F64} {q : ℚ} (h : FVal.ofBits b = .fin q) (h0 : 0 < q) :
    ∃ s, ∃ n : ℕ, ∃ k : ℤ, stdFmt.f64 (.fin q) = String.ofList s ∧ Numeral s (n * 10 ^ k) ∧
      n < 10 ^ 17 ∧ ¬ 10 ∣ n ∧
      ∀ (s' : Text) (n' : ℕ) (k' : ℤ), Numeral s' (n' * 10 ^ k') → readF64 s' = some b →
        k' ≤ k ∧ (k' = k → |q - n * 10 ^ k| ≤ |q - n' * 10 ^ k'|) := by
  obtain ⟨h1, h2⟩ := isF_of_ofBits h
  rw [abs_of_pos h0] at h2
  obtain ⟨a1, a2, a3, a4, a5, a6⟩ := shortest_spec h0 h1 h2
  have ht : f64Text (.fin q) = decText (shortest q).1 (shortest q).2 := by
    simp only [f64Text, signed]
    rw [if_neg h0.ne', if_neg (by linarith)]
  refine ⟨_, _, _, rfl, by rw [ht]; exact numeral_decText _ _, a5, a6, fun s' n' k' hs hr => ?_⟩
  rw [readF64_numeral hs, Option.some.injEq] at hr
  have hr' : rnd ((n' : ℚ) * 10 ^ k') = .fin q := by
    rw [← ofBits_bits_rnd (numeral_nonneg hs), hr, h]
  refine ⟨a2 n' k' hr', fun e => ?_⟩
  subst e
  exact a3 n' hr'

/-- Every `f64` that is a number or infinite can be given on the command line. -/
theorem C96_spellable (b : F64) (hn : FVal.ofBits b ≠ .nan) : ∃ s, readF64 s = some b := by
  by_cases hz : b = 0x8000000000000000#64
  · exact ⟨['-', '0'], by rw [hz]; decide +kernel⟩
  · obtain ⟨s, _, h, _⟩ := C96_back b hz
    exact ⟨s, h hn⟩

/-- `show` prints version, capacity, estimated number of elements and probability of the filter
exactly. -/
theorem C96_show {env : Env} (hs : env.Small) {w : World} {file : Path} {bs : List U8} {f : Bloom}
    (ho : w.open file = .ok (Reader.ofBytes bs))
    (hf : Bloom.fromReader env (Reader.ofBytes bs) = .ok f)
    (hz : f.fpp ≠ 0x8000000000000000#64) (hn : FVal.ofBits f.fpp ≠ .nan) :
    ∃ v c n p : Text, ∃ l₁ l₂ : String, Cli.show stdFmt env w file = .ok [
        "File: " ++ file,
        "\tversion                                  : " ++ String.ofList v,
        "\tcapacity (desired number of elements)    : " ++ String.ofList c,
        "\tn (estimated number of elements)         : " ++ String.ofList n,
        "\tfpp (false positive probability)         : " ++ String.ofList p, l₁, l₂] ∧
      Decimal v f.version.toNat ∧ Decimal c f.capacity.toNat ∧ Decimal n f.countEstimate.toNat ∧
      readF64 p = some f.fpp := by
  obtain ⟨size, _, h⟩ := C60_show hs stdFmt ho hf
  obtain ⟨v, hv, hv', _⟩ := C96_integers (f.version.setWidth 64)
  obtain ⟨c, hc, hc', _⟩ := C96_integers f.capacity
  obtain ⟨n, hn', hn'', _⟩ := C96_integers f.countEstimate
  obtain ⟨p, hp, hp', _⟩ := C96_back f.fpp hz
  rw [hv, hc, hn', hp] at h
  refine ⟨v, c, n, p, _, _, h, ?_, hc', hn'', hp' hn⟩
  rw [BitVec.toNat_setWidth, Nat.mod_eq_of_lt (by have := f.version.isLt; omega)] at hv'
  exact hv'

/-- Filters for which `show` prints the same have the same version, capacity, estimated number of
elements and probability. -/
theorem C96_show_same {env : Env} (hs : env.Small) {w w' : World} {file file' : Path}
    {bs bs' : List U8} {f f' : Bloom}
    (ho : w.open file = .ok (Reader.ofBytes bs))
    (hf : Bloom.fromReader env (Reader.ofBytes bs) = .ok f)
    (ho' : w'.open file' = .ok (Reader.ofBytes bs'))
    (hf' : Bloom.fromReader env (Reader.ofBytes bs') = .ok f')
    (hz : f.fpp ≠ 0x8000000000000000#64) (hz' : f'.fpp ≠ 0x8000000000000000#64)
    (hn : FVal.ofBits f.fpp ≠ .nan) (hn' : FVal.ofBits f'.fpp ≠ .nan) {l l' : List String}
    (h : Cli.show stdFmt env w file = .ok l) (h' : Cli.show stdFmt env w' file' = .ok l')
    (heq : l.tail = l'.tail) :
    f.version = f'.version ∧ f.capacity = f'.capacity ∧ f.countEstimate = f'.countEstimate ∧
      f.fpp = f'.fpp := by
  obtain ⟨v, c, n, p, l₁, l₂, e, a1, a2, a3, a4⟩ := C96_show hs ho hf hz hn
  obtain ⟨v', c', n', p', l₁', l₂', e', b1, b2, b3, b4⟩ := C96_show hs ho' hf' hz' hn'
  rw [h] at e
  rw [h'] at e'
  injection e with e
  injection e' with e'
  subst e e'
  simp only [List.tail_cons, List.cons.injEq, String.append_right_inj, String.ofList_inj] at heq
  obtain ⟨rfl, rfl, rfl, rfl, _⟩ := heq
  rw [a4] at b4
  refine ⟨?_, ?_, ?_, Option.some.inj b4⟩
  · exact BitVec.eq_of_toNat_eq (Cli.Line.decimal_unique a1 b1)
  · exact BitVec.eq_of_toNat_eq (Cli.Line.decimal_unique a2 b2)
  · exact BitVec.eq_of_toNat_eq (Cli.Line.decimal_unique a3 b3)

/-- The options that `show` prints give the same parameters again: after `create` with them, the new
file holds a filter of the same version, capacity and probability. -/
theorem C96_again {t : Libs} {env : Env} (hs : env.Small) {w : World} {file : Path} {bs : List U8}
    {f : Bloom} (ho : w.open file = .ok (Reader.ofBytes bs))
    (hf : Bloom.fromReader env (Reader.ofBytes bs) = .ok f)
    (hz : f.fpp ≠ 0x8000000000000000#64) (hn : FVal.ofBits f.fpp ≠ .nan)
    {l₀ l₃ l₅ l₆ : String} {v c p : Text} (hshow : Cli.show stdFmt env w file = .ok [l₀,
      "\tversion                                  : " ++ String.ofList v,
      "\tcapacity (desired number of elements)    : " ++ String.ofList c, l₃,
      "\tfpp (false positive probability)         : " ++ String.ofList p, l₅, l₆])
    {new : Text} (hnew : ¬ Dashed new) (hnew0 : new ≠ []) {w0 w1 : World} (hd : w0.disk = none)
    {x : Around} {pr : Printed}
    (h : tool t readF64 env w0 ["create".toList, "--version".toList, v, "--capacity".toList, c,
      ('-' :: '-' :: "probability".toList) ++ '=' :: p, new] x = (w1, pr, some 0)) :
    ∃ g, Stored env w1 (String.ofList new) g ∧ g.version = f.version ∧ g.capacity = f.capacity ∧
      g.fpp = f.fpp := by
  obtain ⟨v', c', n', p', l₁', l₂', e, a1, a2, _, a4⟩ := C96_show hs ho hf hz hn
  rw [hshow] at e
  simp only [Res.ok.injEq, List.cons.injEq, String.append_right_inj, String.ofList_inj] at e
  obtain ⟨_, rfl, rfl, _, rfl, _⟩ := e
  have nd : ∀ {s : Text} {n : ℕ}, Decimal s n → ¬ Dashed s := by
    intro s n hs
    exact numeral_not_dashed (.inl ⟨n, hs, rfl⟩)
  have words : Words Spec.Line.create ["--version".toList, v, "--capacity".toList, c,
      ('-' :: '-' :: "probability".toList) ++ '=' :: p, new]
      [(⟨none, "version", some .u8⟩, v), (⟨some 'c', "capacity", some .usize⟩, c),
        (⟨some 'p', "probability", some .f64⟩, p)] [new] := by
    refine Words.long (o := ⟨none, "version", some .u8⟩) (by decide) (by decide) (nd a1) ?_
    refine Words.long (o := ⟨some 'c', "capacity", some .usize⟩) (by decide) (by decide) (nd a2) ?_
    refine Words.eq (o := ⟨some 'p', "probability", some .f64⟩) (by decide) (by decide) ?_
    exact .word hnew .nil
  have fine0 : Fine readF64 [] := ⟨by simp, by simp⟩
  have r1 : Reads readF64 .u8 v f.version.toNat := .inl ⟨.inl a1, f.version.isLt⟩
  have r2 : Reads readF64 .usize c f.capacity.toNat := ⟨.inl a2, f.capacity.isLt⟩
  have r3 : Reads readF64 .f64 p f.fpp.toNat := ⟨f.fpp, a4, rfl⟩
  have fine : Fine readF64 [(⟨none, "version", some .u8⟩, v),
      (⟨some 'c', "capacity", some .usize⟩, c), (⟨some 'p', "probability", some .f64⟩, p)] := by
    refine ⟨show ["version", "capacity", "probability"].Nodup by decide, ?_⟩
    intro o u hou k hk
    simp only [List.mem_cons, Prod.mk.injEq, List.not_mem_nil, or_false] at hou
    rcases hou with ⟨rfl, rfl⟩ | ⟨rfl, rfl⟩ | ⟨rfl, rfl⟩ <;> cases hk
    · exact ⟨_, r1⟩
    · exact ⟨_, r2⟩
    · exact ⟨_, r3⟩
  have m : Means readF64 ["create".toList, "--version".toList, v, "--capacity".toList, c,
      ('-' :: '-' :: "probability".toList) ++ '=' :: p, new] false 2
      (.create ⟨f.version, f.capacity, f.fpp, 0#8, String.ofList new, []⟩) := by
    refine ⟨[], "create", _, [], rfl, .nil, by simp, fine0, by simp [Spec.Line.Given],
      .inr ⟨rfl, by simp⟩, .create words fine hnew0 (.inl ⟨_, _, _, .head _, rfl, rfl, r1⟩)
        (.inl ⟨_, _, _, .tail _ (.head _), rfl, rfl, r2⟩)
        (.inl ⟨_, _, _, .tail _ (.tail _ (.head _)), rfl, rfl, r3⟩) (.inr ⟨rfl, ?_⟩) rfl rfl⟩
    intro o u hou
    simp only [List.mem_cons, Prod.mk.injEq, List.not_mem_nil, or_false] at hou
    rcases hou with ⟨rfl, _⟩ | ⟨rfl, _⟩ | ⟨rfl, _⟩ <;> decide
  obtain ⟨w', pr', r, e, e1, e2, e3, -⟩ :=
    (C90_tool C96_defaults (t := t) (env := env) (w := w0) (x := x)).1 _ _ _ m
  rw [h] at e1 e2 e3
  simp only at e1 e2 e3
  subst e1 e2
  rw [e3.mp trivial] at e
  obtain ⟨g, es, g1, _, g2, g3, g4, _⟩ := C74_create hs hd rfl e
  exact ⟨g, g1, g2, by rw [g4]; rfl, g3⟩

/-- The size shown, up to 8 PiB: a number with one decimal, within a twentieth of its unit; the unit
is the largest that is not larger than the size. -/
theorem C96_size (b : U64) (hb : b.toNat ≤ 2 ^ 53) : ∃ s u v, ∃ n : ℕ,
    (ByteSize.fromBytes b).display stdFmt.f64Prec1 = String.ofList (s ++ u) ∧
    sizeUnit u = some n ∧ Numeral s v ∧ |v * n - b.toNat| ≤ n / 20 ∧
    (∃ a d, s = a ++ ['.', d]) ∧ (n ≤ b.toNat ∨ n = 1) ∧ (b.toNat < 1024 * n ∨ n = 2 ^ 30) := by
  obtain ⟨q, u, h1, h2⟩ := C63_display stdFmt.f64Prec1 b
  have h2 := h2 hb
  have key : ∀ (t : Text) (n : ℕ), u = String.ofList t → sizeUnit t = some n → 0 < n →
      q = b.toNat / n → (n ≤ b.toNat ∨ n = 1) → (b.toNat < 1024 * n ∨ n = 2 ^ 30) →
      ∃ s u v, ∃ n : ℕ,
      (ByteSize.fromBytes b).display stdFmt.f64Prec1 = String.ofList (s ++ u) ∧
      sizeUnit u = some n ∧ Numeral s v ∧ |v * n - b.toNat| ≤ n / 20 ∧
      (∃ a d, s = a ++ ['.', d]) ∧ (n ≤ b.toNat ∨ n = 1) ∧ (b.toNat < 1024 * n ∨ n = 2 ^ 30) := by
    intro t n hu ht hn hq r1 r2
    have hn' : (0 : ℚ) < n := by exact_mod_cast hn
    have hq0 : 0 ≤ q := by rw [hq]; positivity
    obtain ⟨v, v1, v2, v3⟩ := f64Text1_spec hq0
    refine ⟨_, t, v, n, ?_, ht, v1, ?_, v3, r1, r2⟩
    · rw [h1, hu, String.ofList_append]; rfl
    · have e : (b.toNat : ℚ) = q * n := by rw [hq]; field_simp
      rw [e, ← sub_mul, abs_mul, abs_of_pos hn']
      have := mul_le_mul_of_nonneg_right v2 hn'.le
      linarith
  split_ifs at h2 with a1 a2 a3 <;> obtain ⟨rfl, hq⟩ := Prod.mk.inj h2
  · exact key ['B'] 1 rfl rfl (by norm_num) (by rw [hq]; simp) (.inr rfl) (.inl (by omega))
  · exact key ['K', 'B'] (2 ^ 10) rfl rfl (by norm_num) (by rw [hq]; norm_num) (.inl (by omega))
      (.inl (by omega))
  · exact key ['M', 'B'] (2 ^ 20) rfl rfl (by norm_num) (by rw [hq]; norm_num) (.inl (by omega))
      (.inl (by omega))
  · exact key ['G', 'B'] (2 ^ 30) rfl rfl (by norm_num) (by rw [hq]; norm_num) (.inl (by omega))
      (.inr rfl)

/-- The unit is chosen before rounding: one byte less than a megabyte is shown as 1024 kilobytes. The
text does not tell the exact size. -/
theorem C96_size_unit :
    (ByteSize.fromBytes 1048575).display stdFmt.f64Prec1 = "1024.0KB" ∧
    (ByteSize.fromBytes 1048576).display stdFmt.f64Prec1 = "1.0MB" ∧
    (ByteSize.fromBytes 1101004).display stdFmt.f64Prec1 = "1.0MB" := by decide +kernel

/-- Durations are printed exactly, in the largest of the four units that is not larger, without zeros
after the last decimal. -/
theorem C96_duration (ns : ℕ) : ∃ s u v, ∃ n : ℕ, stdFmt.duration ns = String.ofList (s ++ u) ∧
    timeUnit u = some n ∧ Numeral s v ∧ v * n = ns ∧ (∀ t, '.' ∈ t → s ≠ t ++ ['0']) ∧
    (n ≤ ns ∨ n = 1) ∧ (ns < 1000 * n ∨ n = 10 ^ 9) := by
  have key : ∀ (j : ℕ) (u : Text), j < 9 → timeUnit u = some (10 ^ (j + 1)) → 10 ^ (j + 1) ≤ ns →
      (ns < 1000 * 10 ^ (j + 1) ∨ 10 ^ (j + 1) = 10 ^ 9) →
      stdFmt.duration ns
        = String.ofList (fmtDecimal (ns / 10 ^ (j + 1)) (ns % 10 ^ (j + 1)) (10 ^ j) u) →
      ∃ s u v, ∃ n : ℕ, stdFmt.duration ns = String.ofList (s ++ u) ∧
        timeUnit u = some n ∧ Numeral s v ∧ v * n = ns ∧ (∀ t, '.' ∈ t → s ≠ t ++ ['0']) ∧
        (n ≤ ns ∨ n = 1) ∧ (ns < 1000 * n ∨ n = 10 ^ 9) := by
    intro j u hj hu hle hlt hd
    obtain ⟨s, h1, h2, h3⟩ := fmtDecimal_spec (ns / 10 ^ (j + 1)) j (ns % 10 ^ (j + 1)) hj
      (Nat.mod_lt _ (by positivity)) u
    refine ⟨s, u, _, _, by rw [hd, h1], hu, h2, ?_, h3, .inl hle, hlt⟩
    push_cast
    rw [add_mul, div_mul_cancel₀ _ (by positivity)]
    have := Nat.div_add_mod ns (10 ^ (j + 1))
    rw [mul_comm] at this
    exact_mod_cast this
  have hdef : stdFmt.duration ns = String.ofList (durationText ns) := rfl
  unfold durationText at hdef
  split_ifs at hdef with h1 h2 h3
  · exact key 8 ['s'] (by norm_num) rfl h1 (.inr rfl) hdef
  · exact key 5 ['m', 's'] (by norm_num) rfl h2 (.inl (by omega)) hdef
  · exact key 2 ['µ', 's'] (by norm_num) rfl h3 (.inl (by omega)) hdef
  · obtain ⟨s, g1, g2, g3⟩ := fmtDecimal_spec ns 0 0 (by norm_num) (by norm_num) ['n', 's']
    refine ⟨s, ['n', 's'], _, 1, by rw [hdef]; exact congrArg _ g1, rfl, g2, by simp, g3, .inr rfl,
      .inl (by omega)⟩

/-- A false positive rate is printed as any `f64`, with spaces before it if it is shorter than three
characters. -/
theorem C96_rate (x : FVal) : ∃ t k, stdFmt.f64 x = String.ofList t ∧
    stdFmt.f64Width3 x = String.ofList (List.replicate k ' ' ++ t) ∧ k + t.length = max 3 t.length :=
  ⟨f64Text x, 3 - (f64Text x).length, rfl, rfl, by omega⟩

-- what is shown for a stored filter
example : Cli.show stdFmt Sample.env (Sample.world3 none) "bf" = .ok ["File: bf",
    "\tversion                                  : 1",
    "\tcapacity (desired number of elements)    : 100",
    "\tn (estimated number of elements)         : 0",
    "\tfpp (false positive probability)         : 0.01",
    "\tLength of data                           : 0.0B",
    "\tSize of bloom filter                     : 7.5KB"] := by decide +kernel

-- creating a filter with these options
example : (tool Sample.libs readF64 Sample.env (Sample.world3 none)
    ["create".toList, "--version".toList, ['1'], "--capacity".toList, ['1', '0', '0'],
      ('-' :: '-' :: "probability".toList) ++ '=' :: ['0', '.', '0', '1'], ['n', 'e', 'w']]
    (Sample.around [])).2.2 = some 0 := by decide +kernel

-- numbers: the default probability, the largest and the smallest number, a number between two texts of
-- the same length, and a power of two
example : [0x3F847AE147AE147B#64, 0x3FF0000000000000#64, 0xC0091EB851EB851F#64, 0x4310000000000001#64,
      0x3D30000000000000#64, 0x7FF0000000000000#64].map (fun b => stdFmt.f64 (FVal.ofBits b))
    = ["0.01", "1", "-3.14", "1125899906842624.3", "0.00000000000005684341886080802", "inf"] := by
  decide +kernel

example : stdFmt.f64 (FVal.ofBits 0x7FEFFFFFFFFFFFFF#64)
    = String.ofList ("17976931348623157".toList ++ List.replicate 292 '0') := by decide +kernel

example : stdFmt.f64 (FVal.ofBits 1#64)
    = String.ofList ("0.".toList ++ List.replicate 323 '0' ++ ['5']) := by decide +kernel

-- reading: exponents, signs, numbers without digits on one side of the point, and texts that are not
-- numbers
example : ["1e5", "-.5e+1", "5.", "1E-400", "1e400", "-infINity", "1e99999999999"].map
      (fun s => readF64 s.toList)
    = [some 0x40F86A0000000000#64, some 0xC014000000000000#64, some 0x4014000000000000#64, some 0#64,
      some 0x7FF0000000000000#64, some 0xFFF0000000000000#64, some 0x7FF0000000000000#64] := by
  decide +kernel

example : ["", ".", "e5", "1e", "1e+", "--1", "+", " 1", "0x10", "1_0", "infin", "1.2.3"].map
    (fun s => readF64 s.toList) = List.replicate 12 none := by decide +kernel

example : [0, 999, 1500, 1000000, 1234567, 1000000001, 60000000000].map stdFmt.duration
    = ["0ns", "999ns", "1.5µs", "1ms", "1.234567ms", "1.000000001s", "60s"] := by decide +kernel

example : [0, 1 / 4, 3 / 4, 1 / 32].map (fun q => (stdFmt.f64Prec1 (.fin q), stdFmt.f64Width3 (.fin q)))
    = [("0.0", "  0"), ("0.2", "0.25"), ("0.8", "0.75"), ("0.0", "0.03125")] := by decide +kernel

end Poppy
