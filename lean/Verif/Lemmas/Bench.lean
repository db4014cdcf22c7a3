import Verif.BenchSpec
import Verif.Lemmas.Stdout
import Verif.Lemmas.CliCommands
import Verif.Props.Constructor
import Verif.Props.CliCommands
import Verif.Props.Compat

/-! # Helper lemmas for `bench` -/

namespace Poppy

open Spec Cli

theorem firsts_filter {α β : Type} [DecidableEq β] (h : α → β) (p : β → Bool) (l : List α) :
    firsts h (l.filter fun x => p (h x)) = (firsts h l).filter fun x => p (h x) := by
  induction l with
  | nil => rfl
  | cons x xs ih =>
    simp only [List.filter_cons, firsts]
    split
    · simp only [firsts, ih, List.filter_filter]
      congr 2
      funext y
      rw [Bool.and_comm]
    · rename_i hx
      rw [ih, List.filter_filter]
      congr 1
      funext y
      by_cases hy : p (h y) = true
      · have : h y ≠ h x := fun e => hx (e ▸ hy)
        simp [this]
      · simp [hy]

theorem firsts_sublist {α β : Type} [DecidableEq β] (h : α → β) (l : List α) :
    (firsts h l).Sublist l := by
  induction l with
  | nil => exact .slnil
  | cons x xs ih => exact (List.filter_sublist.trans ih).cons_cons x

theorem firsts_nodup {α β : Type} [DecidableEq β] (h : α → β) (l : List α) :
    ((firsts h l).map h).Nodup := by
  induction l with
  | nil => exact List.nodup_nil
  | cons x xs ih =>
    simp only [firsts, List.map_cons, List.nodup_cons]
    refine ⟨fun hm => ?_, ih.sublist (List.filter_sublist.map h)⟩
    obtain ⟨y, hy, e⟩ := List.mem_map.1 hm
    have := (List.mem_filter.1 hy).2
    simp [e] at this

theorem mem_firsts {α β : Type} [DecidableEq β] (h : α → β) (l : List α) :
    ∀ x ∈ l, ∃ y ∈ firsts h l, h y = h x := by
  induction l with
  | nil => simp
  | cons a xs ih =>
    intro x hx
    rcases List.mem_cons.1 hx with rfl | hx
    · exact ⟨x, by simp [firsts], rfl⟩
    · obtain ⟨y, hy, e⟩ := ih x hx
      by_cases ha : h y = h a
      · exact ⟨a, by simp [firsts], by rw [← ha, e]⟩
      · exact ⟨y, by simp [firsts, hy, ha], e⟩

theorem firsts_concat {α β : Type} [DecidableEq β] (h : α → β) (l : List α) (x : α) :
    firsts h (l ++ [x]) = firsts h l ++ if h x ∈ l.map h then [] else [x] := by
  induction l with
  | nil => simp [firsts]
  | cons a l ih =>
    simp only [List.cons_append, firsts, ih, List.filter_append, List.map_cons, List.mem_cons]
    by_cases h1 : h x ∈ l.map h
    · simp [h1]
    · by_cases h2 : h x = h a
      · simp [h2]
      · simp [h1, h2]

theorem total_dropLast_firsts (h : List U8 → U64) {limit : ℕ} {pre : List (List U8)}
    (hp : ∀ p, p <+: pre → p ≠ pre → total (firsts h p) ≤ limit) :
    total (firsts h pre).dropLast ≤ limit := by
  rcases List.eq_nil_or_concat pre with rfl | ⟨p, x, rfl⟩
  · simp [firsts, total]
  · have h1 := hp p (by simp) (by simp)
    rw [List.concat_eq_append, firsts_concat]
    split_ifs
    · rw [List.append_nil]
      exact (((firsts h p).dropLast_sublist.map List.length).sum_le_sum (by simp)).trans h1
    · rwa [List.dropLast_concat]

theorem benchEntries_spec (h : List U8 → U64) (limit : ByteSize) (ls : List (Res (List U8)))
    (marked : List U64) (size : U64) (acc : List (List U8)) {es : List (List U8)}
    (hs : size.toNat = total acc) (hm : ∀ x, x ∈ marked ↔ x ∈ acc.map h)
    (hsum : total acc + total (entries ls) < 2 ^ 64)
    (he : benchEntries h limit ls marked size acc = .ok es) :
    ∃ pre rest, ls = pre.map Res.ok ++ rest ∧
      es = acc ++ (firsts h pre).filter (fun y => decide (h y ∉ acc.map h)) ∧
      (rest = [] ∨ (∃ l r, rest = .ok l :: r) ∧ limit.inBytes.toNat < total es) ∧
      (es = acc ∨ total es.dropLast ≤ limit.inBytes.toNat) ∧
      (∀ p, p <+: pre → p ≠ pre → total (acc ++ (firsts h p).filter
        (fun y => decide (h y ∉ acc.map h))) ≤ limit.inBytes.toNat) := by
  induction ls generalizing marked size acc with
  | nil =>
    simp only [benchEntries, Res.ok.injEq] at he
    exact ⟨[], [], rfl, by simp [firsts, he], .inl rfl, .inl he.symm,
      fun p h1 h2 => absurd (List.prefix_nil.1 h1) h2⟩
  | cons l ls ih =>
    unfold benchEntries at he
    cases l with
    | err e => cases he
    | panic => cases he
    | ok line =>
    have hsz : ((ByteSize.fromBytes size).cmp limit = .gt) ↔ limit.inBytes.toNat < total acc := by
      rw [(C63_compare _ _).2.2.2.1, (C63_from_bytes _).1, hs]
    have htot : total (entries (.ok line :: ls)) = line.length + total (entries ls) := by
      simp [entries, total]
    simp only at he
    split at he
    · rename_i hgt
      cases he
      exact ⟨[], .ok line :: ls, rfl, by simp [firsts], .inr ⟨⟨_, _, rfl⟩, hsz.1 hgt⟩, .inl rfl,
        fun p h1 h2 => absurd (List.prefix_nil.1 h1) h2⟩
    · rename_i hgt
      rw [hsz, Nat.not_lt] at hgt
      have hadd : total (acc ++ [line]) = total acc + line.length := by simp [total]
      split at he
      · rename_i hmk
        have hnot : h line ∉ acc.map h := by
          rw [← hm]; simpa using hmk
        obtain ⟨pre, rest, h1, h2, h3, h4, h5⟩ := ih (h line :: marked) _ (acc ++ [line])
          (by rw [hadd, BitVec.toNat_add, BitVec.toNat_ofNat, hs]; omega)
          (fun x => by simp [hm, or_comm]) (by rw [hadd]; omega) he
        have hstep : ∀ p, acc ++ (firsts h (line :: p)).filter (fun y => decide (h y ∉ acc.map h))
            = acc ++ [line] ++ (firsts h p).filter
              (fun y => decide (h y ∉ (acc ++ [line]).map h)) := by
          intro p
          simp only [firsts, List.filter_cons, hnot, not_false_eq_true, decide_true, if_true,
            List.append_assoc, List.filter_filter]
          simp only [List.map_append, List.map_cons, List.map_nil, List.mem_append,
            List.mem_singleton, not_or, List.cons_append, List.nil_append, Bool.decide_and, ne_eq]
        refine ⟨line :: pre, rest, by simp [h1], by rw [h2, hstep], h3, .inr ?_, ?_⟩
        · rcases h4 with h4 | h4
          · rw [h4, List.dropLast_concat]; exact hgt
          · exact h4
        · intro p hp hne
          cases p with
          | nil => simpa [firsts] using hgt
          | cons x p =>
            rw [List.cons_prefix_cons] at hp
            obtain ⟨rfl, hp⟩ := hp
            rw [hstep]
            exact h5 p hp fun e => hne (by rw [e])
      · rename_i hmk
        have hin : h line ∈ acc.map h := by
          rw [← hm]; simpa using hmk
        obtain ⟨pre, rest, h1, h2, h3, h4, h5⟩ := ih marked _ acc hs hm (by omega) he
        have hstep : ∀ p, acc ++ (firsts h (line :: p)).filter (fun y => decide (h y ∉ acc.map h))
            = acc ++ (firsts h p).filter (fun y => decide (h y ∉ acc.map h)) := by
          intro p
          simp only [firsts, List.filter_cons, hin, not_true_eq_false, decide_false,
            Bool.false_eq_true, if_false, List.filter_filter]
          congr 2
          funext y
          by_cases hy : h y ∈ acc.map h
          · simp [hy]
          · have : h y ≠ h line := fun e => hy (e ▸ hin)
            simp [hy, this]
        refine ⟨line :: pre, rest, by simp [h1], by rw [h2, hstep], h3, h4, ?_⟩
        intro p hp hne
        cases p with
        | nil => simpa [firsts] using hgt
        | cons x p =>
          rw [List.cons_prefix_cons] at hp
          obtain ⟨rfl, hp⟩ := hp
          rw [hstep]
          exact h5 p hp fun e => hne (by rw [e])

/-- The lines before the limit is reached are taken. -/
theorem benchEntries_pre (h : List U8 → U64) (limit : ByteSize) (pre : List (List U8))
    (rest : List (Res (List U8))) (marked : List U64) (size : U64) (acc : List (List U8))
    (hs : size.toNat = total acc) (hm : ∀ x, x ∈ marked ↔ x ∈ acc.map h)
    (hsum : total acc + total pre < 2 ^ 64)
    (hp : ∀ p, p <+: pre → p ≠ pre → total (acc ++ (firsts h p).filter
        (fun y => decide (h y ∉ acc.map h))) ≤ limit.inBytes.toNat) :
    ∃ marked' size', size'.toNat = total (acc ++ (firsts h pre).filter
        (fun y => decide (h y ∉ acc.map h))) ∧
      benchEntries h limit (pre.map Res.ok ++ rest) marked size acc
        = benchEntries h limit rest marked' size' (acc ++ (firsts h pre).filter
            (fun y => decide (h y ∉ acc.map h))) := by
  induction pre generalizing marked size acc with
  | nil => exact ⟨marked, size, by simpa [firsts] using hs, by simp [firsts]⟩
  | cons line pre ih =>
    have hgt : total acc ≤ limit.inBytes.toNat := by
      have := hp [] (List.nil_prefix) (by simp)
      simpa [firsts] using this
    have hsz : ¬ (ByteSize.fromBytes size).cmp limit = .gt := by
      rw [(C63_compare _ _).2.2.2.1, (C63_from_bytes _).1, hs]
      omega
    have htot : total (line :: pre) = line.length + total pre := by simp [total]
    have hadd : total (acc ++ [line]) = total acc + line.length := by simp [total]
    simp only [List.map_cons, List.cons_append]
    conv => enter [1, marked', 1, size', 2, 1]; unfold benchEntries
    simp only [if_neg hsz]
    by_cases hin : h line ∈ acc.map h
    · have hmk : marked.contains (h line) = true := by rw [List.contains_iff_mem, hm]; exact hin
      have hstep : ∀ p, acc ++ (firsts h (line :: p)).filter (fun y => decide (h y ∉ acc.map h))
          = acc ++ (firsts h p).filter (fun y => decide (h y ∉ acc.map h)) := by
        intro p
        simp only [firsts, List.filter_cons, hin, not_true_eq_false, decide_false,
          Bool.false_eq_true, if_false, List.filter_filter]
        congr 2
        funext y
        by_cases hy : h y ∈ acc.map h
        · simp [hy]
        · have : h y ≠ h line := fun e => hy (e ▸ hin)
          simp [hy, this]
      simp only [hmk, hstep, Bool.not_true, Bool.false_eq_true, if_false]
      refine ih marked size acc hs hm (by omega) fun p h1 h2 => ?_
      rw [← hstep]
      exact hp _ (List.cons_prefix_cons.2 ⟨rfl, h1⟩) fun e => h2 (List.cons.inj e).2
    · have hmk : marked.contains (h line) = false := by
        rw [Bool.eq_false_iff, ne_eq, List.contains_iff_mem, hm]; exact hin
      have hstep : ∀ p, acc ++ (firsts h (line :: p)).filter (fun y => decide (h y ∉ acc.map h))
          = acc ++ [line] ++ (firsts h p).filter
            (fun y => decide (h y ∉ (acc ++ [line]).map h)) := by
        intro p
        simp only [firsts, List.filter_cons, hin, not_false_eq_true, decide_true, if_true,
          List.append_assoc, List.filter_filter]
        simp only [List.map_append, List.map_cons, List.map_nil, List.mem_append,
          List.mem_singleton, not_or, List.cons_append, List.nil_append, Bool.decide_and, ne_eq]
      simp only [hmk, hstep, Bool.not_false, if_true]
      refine ih (h line :: marked) _ (acc ++ [line])
        (by rw [hadd, BitVec.toNat_add, BitVec.toNat_ofNat, hs]; omega)
        (fun x => by simp [hm, or_comm]) (by rw [hadd]; omega) fun p h1 h2 => ?_
      rw [← hstep]
      exact hp _ (List.cons_prefix_cons.2 ⟨rfl, h1⟩) fun e => h2 (List.cons.inj e).2

theorem benchEntries_iff (h : List U8 → U64) (limit : ByteSize) (ls : List (Res (List U8)))
    {es : List (List U8)} (hsum : total (entries ls) < 2 ^ 64) :
    benchEntries h limit ls [] 0 [] = .ok es ↔ Dataset h limit.inBytes.toNat ls es := by
  constructor
  · intro he
    obtain ⟨pre, rest, h1, h2, h3, _, h5⟩ := benchEntries_spec h limit ls [] 0 [] (by rfl) (by simp)
      (by simpa [total] using hsum) he
    exact ⟨pre, rest, h1, by simpa using h2, by simpa using h5, h3⟩
  · rintro ⟨pre, rest, rfl, rfl, h5, h3⟩
    rw [entries_append, entries_ok] at hsum
    have : total (pre ++ entries rest) = total pre + total (entries rest) := by simp [total]
    obtain ⟨m, s, hs, he⟩ := benchEntries_pre h limit pre rest [] 0 [] (by rfl) (by simp)
      (by simp only [total, List.map_nil, List.sum_nil] at *; omega) (by simpa using h5)
    rw [he]
    simp only [List.map_nil, List.not_mem_nil, not_false_eq_true, decide_true, List.filter_true,
      List.nil_append] at hs ⊢
    rcases h3 with rfl | ⟨⟨l, r, rfl⟩, hlt⟩
    · rfl
    · unfold benchEntries
      simp only
      rw [if_pos]
      rw [(C63_compare _ _).2.2.2.1, (C63_from_bytes _).1, hs]
      exact hlt

theorem benchEntries_total (h : List U8 → U64) (limit : ByteSize) (ls : List (List U8))
    (marked : List U64) (size : U64) (acc : List (List U8)) :
    ∃ es, benchEntries h limit (ls.map Res.ok) marked size acc = .ok es := by
  induction ls generalizing marked size acc with
  | nil => exact ⟨_, rfl⟩
  | cons l ls ih =>
    simp only [List.map_cons, benchEntries]
    split
    · exact ⟨_, rfl⟩
    · split
      · exact ih _ _ _
      · exact ih _ _ _

theorem benchFilter_ok {env : Env} {v opt : U8} {fpp : F64} {es : List (List U8)} {g : Bloom}
    (h : benchFilter env v opt fpp es = .ok g) :
    ∃ lvl b, OptLevel.tryFrom opt = .ok lvl ∧
      Bloom.withVersionCapacityOpt env v (BitVec.ofNat 64 es.length) fpp lvl = .ok b ∧
      b.fill env es = (g, .ok ()) := by
  unfold benchFilter at h
  cases ho : OptLevel.tryFrom opt with
  | err e => rw [ho] at h; cases h
  | panic => rw [ho] at h; cases h
  | ok lvl =>
    rw [ho, Res.bind_ok, (C44_params ..).1] at h
    cases hb : Bloom.withVersionCapacityOpt env v (BitVec.ofNat 64 es.length) fpp lvl with
    | err e => rw [hb] at h; cases h
    | panic => rw [hb] at h; cases h
    | ok b =>
      rw [hb, Res.bind_ok] at h
      refine ⟨lvl, b, rfl, hb, ?_⟩
      split at h
      · rename_i hf; cases h; exact hf
      · cases h
      · cases h

theorem benchAll_iff {env : Env} {b : Bloom} {es : List (List U8)} :
    benchAll env b es = .ok () ↔ ∀ e ∈ es, b.containsBytes env e = .ok true := by
  induction es with
  | nil => simp [benchAll]
  | cons e es ih =>
    unfold benchAll
    split
    · rename_i h; simp [ih, h]
    · rename_i h; simp [h]
    · rename_i h; simp [h]
    · rename_i h; simp [h]

theorem statrsMean_spec : MeanSpec statrsMean := by
  have addnan : ∀ x, FVal.add x .nan = .nan := by intro x; cases x <;> rfl
  constructor
  · intro l hl
    have hne : l.isEmpty = false := by cases l <;> simp_all
    unfold statrsMean
    rw [if_neg (by simp [hne])]
    have keep : ∀ (l : List FVal) (i : FVal), (l.foldl (fun (s : FVal × FVal) x =>
        (FVal.add s.1 .one, FVal.add s.2 (FVal.div (FVal.sub x s.2) (FVal.add s.1 .one))))
        (i, .nan)).2 = .nan := by
      intro l
      induction l with
      | nil => intro i; rfl
      | cons x l ih => intro i; exact ih _
    have key : ∀ (l : List FVal) (s : FVal × FVal), .nan ∈ l → (l.foldl (fun (s : FVal × FVal) x =>
        (FVal.add s.1 .one, FVal.add s.2 (FVal.div (FVal.sub x s.2) (FVal.add s.1 .one)))) s).2
          = .nan := by
      intro l
      induction l with
      | nil => intro s h; cases h
      | cons x l ih =>
        intro s h
        rw [List.foldl_cons]
        by_cases hx : x = .nan
        · subst hx
          have : FVal.add s.2 (FVal.div (FVal.sub .nan s.2) (FVal.add s.1 .one)) = .nan := by
            rw [show FVal.div (FVal.sub .nan s.2) (FVal.add s.1 .one) = .nan from rfl, addnan]
          rw [this]
          exact keep _ _
        · exact ih _ ((List.mem_cons.1 h).resolve_left (Ne.symm hx))
    exact key l _ hl
  · intro l q hq h0 h1 hl hall
    have hbig : |q| < f64Huge := by
      rw [abs_of_nonneg h0]
      exact lt_of_le_of_lt h1 (by simpa using two_pow_lt_f64Huge (n := 0) (by norm_num))
    have hr : rnd (K := ℚ) q = .fin q := by
      have := rnd_of_isF (K := ℚ) hq hbig
      simpa using this
    have hr0 : rnd (K := ℚ) 0 = .fin 0 := by simpa using rnd_nat (m := 0) (by norm_num)
    have hr1 : rnd (K := ℚ) 1 = .fin 1 := by simpa using rnd_nat (m := 1) (by norm_num)
    have count : ∀ b : ℚ, 0 ≤ b → FVal.add (.fin b) .one = .pinf ∨
        ∃ v : ℚ, FVal.add (.fin b) .one = .fin v ∧ 1 ≤ v := by
      intro b hb
      have hv : 1 ≤ rndQ (K := ℚ) (b + 1) := le_rndQ _ isF_one (by push_cast; linarith)
      show rnd (b + 1) = _ ∨ ∃ v : ℚ, rnd (b + 1) = _ ∧ _
      unfold rnd
      simp only
      split_ifs with c1 c2
      · exact .inl rfl
      · exfalso
        have := f64Huge_pos
        linarith
      · exact .inr ⟨_, rfl, hv⟩
    have keep : ∀ (l : List FVal) (i : FVal), (∀ x ∈ l, x = .fin q) →
        (i = .pinf ∨ ∃ v : ℚ, i = .fin v ∧ 1 ≤ v) → (l.foldl (fun (s : FVal × FVal) x =>
        (FVal.add s.1 .one, FVal.add s.2 (FVal.div (FVal.sub x s.2) (FVal.add s.1 .one))))
        (i, .fin q)).2 = .fin q := by
      intro l
      induction l with
      | nil => intro i _ _; rfl
      | cons x l ih =>
        intro i hx hi
        obtain rfl := hx x (List.mem_cons_self ..)
        rw [List.foldl_cons]
        have hi' : FVal.add i .one = .pinf ∨ ∃ v : ℚ, FVal.add i .one = .fin v ∧ 1 ≤ v := by
          rcases hi with rfl | ⟨v, rfl, hv⟩
          · exact .inl rfl
          · exact count v (by linarith)
        have hz : FVal.div (FVal.sub (.fin q) (.fin q)) (FVal.add i .one) = .fin 0 := by
          have : FVal.sub (.fin q) (.fin q) = .fin 0 := by
            show rnd (q + -q) = _
            rw [add_neg_cancel, hr0]
          rw [this]
          rcases hi' with h | ⟨v, h, hv⟩
          · rw [h]; rfl
          · rw [h]
            show (if v = 0 then _ else rnd (0 / v)) = _
            rw [if_neg (by linarith), zero_div, hr0]
        have hm : FVal.add (.fin q) (.fin 0) = .fin q := by
          show rnd (q + 0) = _
          rw [add_zero, hr]
        simp only
        rw [hz, hm]
        exact ih _ (fun x hx' => hx x (List.mem_cons_of_mem _ hx')) hi'
    unfold statrsMean
    cases l with
    | nil => exact absurd rfl hl
    | cons x l =>
      obtain rfl := hall x (List.mem_cons_self ..)
      rw [if_neg (by simp), List.foldl_cons]
      have e1 : FVal.add (.fin 0) .one = .fin 1 := by
        show rnd (0 + 1 : ℚ) = _
        rw [zero_add, hr1]
      have e2 : FVal.sub (.fin q) (.fin 0) = .fin q := by
        show rnd (q + -0) = _
        rw [neg_zero, add_zero, hr]
      have e3 : FVal.div (.fin q) (.fin 1) = .fin q := by
        unfold FVal.div
        simp only
        rw [if_neg one_ne_zero, div_one, hr]
      have e4 : FVal.add (.fin 0) (.fin q) = .fin q := by
        show rnd (0 + q) = _
        rw [zero_add, hr]
      simp only
      rw [e1, e2, e3, e4]
      exact keep l _ (fun x hx' => hall x (List.mem_cons_of_mem _ hx')) (.inr ⟨1, rfl, le_refl _⟩)

/-- The events recorded for the test lines. -/
def benchEvents (env : Env) (b : Bloom) (ls : List (Bool × List U8)) : List Stats.Event :=
  (ls.filter (·.1)).map fun l => if b.containsBytes env l.2 = .ok true then .fp else .tn

theorem benchStats_ok {env : Env} {b : Bloom} {ls : List (Bool × List U8)} {s t : Stats}
    (h : benchStats env b ls s = .ok t) :
    t = (benchEvents env b ls).foldl Stats.record s ∧
      ∀ l ∈ ls, ∃ r, b.containsBytes env l.2 = .ok r := by
  induction ls generalizing s with
  | nil => simp only [benchStats, Res.ok.injEq] at h; simp [benchEvents, h]
  | cons l ls ih =>
    obtain ⟨m, l⟩ := l
    unfold benchStats at h
    cases hc : b.containsBytes env l with
    | err e => rw [hc] at h; cases h
    | panic => rw [hc] at h; cases h
    | ok r =>
      rw [hc] at h
      obtain ⟨h1, h2⟩ := ih h
      refine ⟨?_, by simpa [hc] using h2⟩
      rw [h1]
      cases m <;> cases r <;> simp [benchEvents, hc, Stats.record]

theorem benchStats_of {env : Env} {b : Bloom} {ls : List (Bool × List U8)} (s : Stats)
    (h : ∀ l ∈ ls, ∃ r, b.containsBytes env l.2 = .ok r) : ∃ t, benchStats env b ls s = .ok t := by
  induction ls generalizing s with
  | nil => exact ⟨_, rfl⟩
  | cons l ls ih =>
    obtain ⟨m, l⟩ := l
    obtain ⟨r, hr⟩ := h _ (List.mem_cons_self ..)
    unfold benchStats
    simp only at hr
    rw [hr]
    exact ih _ fun l hl => h l (List.mem_cons_of_mem _ hl)

theorem secs_isSecs {a n : ℕ} {g : ℚ} (hg : 0 < g) (ha : a < 2 ^ 40) (hn : n ≤ 2 ^ 53)
    (hng : (n : ℚ) ≤ g) :
    IsSecs (FVal.add (FVal.ofU64 (BitVec.ofNat 64 a))
      (FVal.div (FVal.ofU64 (BitVec.ofNat 64 n)) (.fin g))) := by
  have i40 : IsF ((2 : ℚ) ^ 40) := by simpa using isF_two_zpow (e := 40) (by norm_num)
  have l40 : (2 : ℚ) ^ 40 < f64Huge := two_pow_lt_f64Huge (by norm_num)
  have l1 : (1 : ℚ) < f64Huge := by simpa using two_pow_lt_f64Huge (n := 0) (by norm_num)
  have e : ∀ k : ℕ, k ≤ 2 ^ 53 → FVal.ofU64 (BitVec.ofNat 64 k) = .fin (k : ℚ) := by
    intro k hk
    rw [rnd_fin_u64, BitVec.toNat_ofNat, Nat.mod_eq_of_lt (by omega)]
    have h2 := rndQ_of_isF (K := ℚ) (isF_nat hk)
    simp only [Rat.cast_id] at h2
    rw [h2]
  have hq0 : (0 : ℚ) ≤ (n : ℚ) / g := div_nonneg (Nat.cast_nonneg n) hg.le
  have hq1 : (n : ℚ) / g ≤ 1 := (div_le_one hg).2 hng
  have hd : FVal.div (.fin (n : ℚ)) (.fin g) = .fin (rndQ ((n : ℚ) / g)) := by
    show (if g = 0 then _ else rnd _) = _
    rw [if_neg hg.ne']
    exact (rnd_fin (K := ℚ) isF_one l1 (by rw [abs_of_nonneg hq0]; simpa using hq1)).1
  have r0 := le_rndQ ((n : ℚ) / g) isF_zero (by simpa using hq0)
  have r1 := rndQ_le ((n : ℚ) / g) isF_one (by simpa using hq1)
  have hs' : (a : ℚ) ≤ 2 ^ 40 - 1 := by
    have : (a : ℚ) + 1 ≤ 2 ^ 40 := by exact_mod_cast ha
    linarith
  have hs0 : (0 : ℚ) ≤ (a : ℚ) := Nat.cast_nonneg a
  rw [e a (by omega), e n hn, hd]
  generalize rndQ ((n : ℚ) / g) = r at r0 r1
  refine ⟨rndQ (a + r), ?_, isF_rndQ _, le_rndQ _ isF_zero (by push_cast; linarith),
    rndQ_le _ i40 (by push_cast; linarith)⟩
  exact (rnd_fin (K := ℚ) i40 l40 (by
    rw [abs_of_nonneg (by linarith)]
    push_cast
    linarith)).1

/-- What the clock measures are durations. -/
theorem asSecs_isSecs {ns : ℕ} (h : ns < 2 ^ 40 * 10 ^ 9) : IsSecs (asSecs ns) := by
  have hn : ns % 10 ^ 9 < 10 ^ 9 := Nat.mod_lt _ (by norm_num)
  refine secs_isSecs (by norm_num) ?_ (le_trans hn.le (by norm_num)) (by exact_mod_cast hn.le)
  exact (Nat.div_lt_iff_lt_mul (by norm_num)).2 h

theorem fromSecs_ok {q : ℚ} (h0 : 0 ≤ q) (h1 : q ≤ 2 ^ 41) : ∃ d, fromSecs (.fin q) = .ok d := by
  have hm : rneInt (q * 10 ^ 9) ≤ 2 ^ 41 * 10 ^ 9 + 1 := by
    have h := rneInt_abs_le (q * 10 ^ 9) (2 ^ 41 * 10 ^ 9) (by
      rw [abs_of_nonneg (by positivity)]
      push_cast
      nlinarith)
    have := (abs_le.1 h).2
    omega
  unfold fromSecs
  simp only
  rw [if_neg (not_lt.2 h0), if_neg (by omega)]
  exact ⟨_, rfl⟩

/-- The running mean of durations is finite. -/
theorem statrsMean_finite (l : List FVal) (hl : l ≠ []) (hall : ∀ x ∈ l, IsSecs x) :
    ∃ q : ℚ, statrsMean l = .fin q ∧ 0 ≤ q ∧ q ≤ 2 ^ 41 := by
  have i40 : IsF ((2 : ℚ) ^ 40) := by simpa using isF_two_zpow (e := 40) (by norm_num)
  have i41 : IsF ((2 : ℚ) ^ 41) := by simpa using isF_two_zpow (e := 41) (by norm_num)
  have l40 : (2 : ℚ) ^ 40 < f64Huge := two_pow_lt_f64Huge (by norm_num)
  have l41 : (2 : ℚ) ^ 41 < f64Huge := two_pow_lt_f64Huge (by norm_num)
  have e41 : (2 : ℚ) ^ 41 = 2 * 2 ^ 40 := by norm_num
  have p40 : (0 : ℚ) < 2 ^ 40 := by norm_num
  rw [e41] at i41 l41 ⊢
  unfold IsSecs at hall
  generalize (2 : ℚ) ^ 40 = B at *
  have count : ∀ b : ℚ, 0 ≤ b → FVal.add (.fin b) .one = .pinf ∨
      ∃ v : ℚ, FVal.add (.fin b) .one = .fin v ∧ 1 ≤ v := by
    intro b hb
    have hv : 1 ≤ rndQ (K := ℚ) (b + 1) := le_rndQ _ isF_one (by push_cast; linarith)
    show rnd (b + 1) = _ ∨ ∃ v : ℚ, rnd (b + 1) = _ ∧ _
    unfold rnd
    simp only
    split_ifs with c1 c2
    · exact .inl rfl
    · exfalso
      have := f64Huge_pos
      linarith
    · exact .inr ⟨_, rfl, hv⟩
  -- dividing by a count brings a number towards 0
  have hdiv : ∀ (i : FVal) (d M : ℚ), (i = .pinf ∨ ∃ v : ℚ, i = .fin v ∧ 1 ≤ v) → IsF M →
      M < f64Huge → |d| ≤ M → ∃ e : ℚ, FVal.div (.fin d) i = .fin e ∧ |e| ≤ M ∧
        (0 ≤ d → 0 ≤ e) ∧ (d ≤ 0 → e ≤ 0) := by
    intro i d M hi hM hlt hd
    rcases hi with rfl | ⟨v, rfl, hv⟩
    · exact ⟨0, rfl, by simpa using le_trans (abs_nonneg d) hd, fun _ => le_refl _,
        fun _ => le_refl _⟩
    · have hv0 : 0 < v := by linarith
      have hb : |d / v| ≤ M := by
        rw [abs_div, abs_of_pos hv0, div_le_iff₀ hv0]
        nlinarith [abs_nonneg d]
      obtain ⟨h1, h2⟩ := rnd_fin (K := ℚ) (x := d / v) hM hlt (by simpa using hb)
      refine ⟨rndQ (d / v), ?_, h2, fun h0 => le_rndQ _ isF_zero (by simpa using div_nonneg h0 hv0.le),
        fun h0 => rndQ_le _ isF_zero (by simpa using div_nonpos_of_nonpos_of_nonneg h0 hv0.le)⟩
      show (if v = 0 then _ else rnd _) = _
      rw [if_neg hv0.ne', h1]
  have key : ∀ (l : List FVal) (i : FVal) (m : ℚ), (∀ x ∈ l, ∃ q : ℚ, x = .fin q ∧ IsF q ∧ 0 ≤ q ∧
      q ≤ B) → (i = .pinf ∨ ∃ v : ℚ, i = .fin v ∧ 0 ≤ v) → IsF m → 0 ≤ m → m ≤ 2 * B →
      ∃ q : ℚ, (l.foldl (fun (s : FVal × FVal) x =>
        (FVal.add s.1 .one, FVal.add s.2 (FVal.div (FVal.sub x s.2) (FVal.add s.1 .one))))
        (i, .fin m)).2 = .fin q ∧ 0 ≤ q ∧ q ≤ 2 * B := by
    intro l
    induction l with
    | nil => intro i m _ _ _ h0 h1; exact ⟨m, rfl, h0, h1⟩
    | cons x l ih =>
      intro i m hx hi hm h0 h1
      obtain ⟨q, rfl, hq, q0, q1⟩ := hx x (List.mem_cons_self ..)
      have hi' : FVal.add i .one = .pinf ∨ ∃ v : ℚ, FVal.add i .one = .fin v ∧ 1 ≤ v := by
        rcases hi with rfl | ⟨v, rfl, hv⟩
        · exact .inl rfl
        · exact count v hv
      have hmlt : m < f64Huge := lt_of_le_of_lt h1 l41
      rw [List.foldl_cons]
      obtain ⟨u, hu, hub⟩ : ∃ u : ℚ, FVal.add (.fin m) (FVal.div (FVal.sub (.fin q) (.fin m))
          (FVal.add i .one)) = rnd u ∧ 0 ≤ u ∧ u ≤ 2 * B := by
        rcases le_total m q with hmq | hmq
        · have hd : |q + -m| ≤ B := by rw [abs_of_nonneg (by linarith)]; linarith
          obtain ⟨d1, d2⟩ := rnd_fin (K := ℚ) (x := q + -m) i40 l40 (by simpa using hd)
          obtain ⟨e, he, eb, e0, _⟩ := hdiv _ _ B hi' i40 l40 d2
          have ed := e0 (le_rndQ _ isF_zero (by push_cast; linarith))
          refine ⟨m + e, ?_, by linarith, by have := (abs_le.1 eb).2; linarith⟩
          show FVal.add (.fin m) (FVal.div (rnd (q + -m)) _) = _
          rw [d1, he]
          rfl
        · have hd : |q + -m| ≤ m := by rw [abs_of_nonpos (by linarith)]; linarith
          obtain ⟨d1, d2⟩ := rnd_fin (K := ℚ) (x := q + -m) hm hmlt (by simpa using hd)
          obtain ⟨e, he, eb, _, e0⟩ := hdiv _ _ m hi' hm hmlt d2
          have ed := e0 (rndQ_le _ isF_zero (by push_cast; linarith))
          refine ⟨m + e, ?_, by have := (abs_le.1 eb).1; linarith, by linarith⟩
          show FVal.add (.fin m) (FVal.div (rnd (q + -m)) _) = _
          rw [d1, he]
          rfl
      obtain ⟨r1, r2⟩ := rnd_fin (K := ℚ) (x := u) i41 l41 (by
        rw [abs_of_nonneg hub.1]; simpa using hub.2)
      simp only
      rw [hu, r1]
      refine ih _ _ (fun y hy => hx y (List.mem_cons_of_mem _ hy)) ?_ (isF_rndQ _)
        (le_rndQ _ isF_zero (by simpa using hub.1)) (abs_le.1 r2).2
      rcases hi' with h | ⟨v, h, hv⟩
      · exact .inl h
      · exact .inr ⟨v, h, by linarith⟩
  unfold statrsMean
  rw [if_neg (by simpa using hl)]
  exact key l _ 0 hall (.inr ⟨0, rfl, le_refl _⟩) isF_zero (le_refl _) (by linarith)

/-- A standard deviation that excludes nothing. -/
theorem near_large {x : FVal} (hx : IsSecs x) {m : FVal}
    (hm : ∃ q : ℚ, m = .fin q ∧ 0 ≤ q ∧ q ≤ 2 ^ 41) :
    FVal.le (FVal.abs (FVal.sub x m)) (FVal.mul (.fin 3) (.fin (2 ^ 42))) = true := by
  obtain ⟨a, rfl, _, a0, a1⟩ := hx
  obtain ⟨b, rfl, b0, b1⟩ := hm
  have i42 : IsF ((2 : ℚ) ^ 42) := by simpa using isF_two_zpow (e := 42) (by norm_num)
  have l42 : (2 : ℚ) ^ 42 < f64Huge := two_pow_lt_f64Huge (by norm_num)
  obtain ⟨d1, d2⟩ := rnd_fin (K := ℚ) (x := a + -b) i42 l42 (by
    push_cast
    rw [abs_le]
    constructor <;> linarith)
  have e : FVal.mul (.fin 3) (.fin (2 ^ 42)) = .fin (3 * 2 ^ 42) := by decide +kernel
  rw [e]
  show FVal.le (FVal.abs (rnd (a + -b))) _ = true
  rw [d1]
  show decide (|rndQ (a + -b)| ≤ 3 * 2 ^ 42) = true
  rw [decide_eq_true_eq]
  linarith

/-- With runs, the measure is one. -/
theorem benchmark_ok {mc : Measure} {runs : ℕ} (hm : MeasureSpec mc.mean mc.stdDev mc.clock runs)
    (hr : runs ≠ 0) (m : ℕ) :
    ∃ d, benchmark mc runs m = .ok d := by
  unfold benchmark
  simp only
  split_ifs with h1
  · obtain ⟨q, hq, _, q0, q1⟩ := asSecs_isSecs (hm.clock m 0)
    rw [hq]
    exact fromSecs_ok q0 (le_trans q1 (by norm_num))
  · have hall : ∀ x ∈ (List.range runs).map (fun i => asSecs (mc.clock m i)), IsSecs x := by
      intro x hx
      obtain ⟨i, _, rfl⟩ := List.mem_map.1 hx
      exact asSecs_isSecs (hm.clock m i)
    obtain ⟨x, hx, hx'⟩ := hm.near (by omega) m _ rfl
    obtain ⟨q, hq, q0, q1⟩ := hm.finite (((List.range runs).map fun i => asSecs (mc.clock m i)).filter
        fun x => FVal.le (FVal.abs (FVal.sub x (mc.mean ((List.range runs).map fun i =>
          asSecs (mc.clock m i))))) (FVal.mul (.fin 3) (mc.stdDev ((List.range runs).map fun i =>
          asSecs (mc.clock m i))))) (List.ne_nil_of_mem (List.mem_filter.2 ⟨hx, hx'⟩))
      fun y hy => hall y (List.mem_filter.1 hy).1
    rw [hq]
    exact fromSecs_ok q0 q1

/-- The rounds, in order, and what is printed of them. -/
theorem benchRounds_list' {fmt : Fmt} {env : Env} {mc : Measure} {rng : BenchRng} {b : Bloom}
    {es : List (List U8)} {n runs : ℕ} (hd : ∀ m, ∃ d, benchmark mc runs m = .ok d)
    (ms : List ℕ)
    (hc : ∀ m ∈ ms, ∃ s, benchStats env b (benchLines rng es n m) Stats.new = .ok s) :
    ∃ rs, benchRounds fmt env mc rng b es n runs ms
        = ⟨(List.zipWith (Round.text fmt) ms rs).flatten, .ok rs⟩ ∧
      List.Forall₂ (fun m r => ∃ s, benchStats env b (benchLines rng es n m) Stats.new = .ok s ∧
        benchmark mc runs m = .ok r.duration ∧ r.rate = s.fpRate ∧
        r.lines = (benchLines rng es n m).length ∧
        r.bytes = ((benchLines rng es n m).map fun l => l.2.length).sum) ms rs := by
  induction ms with
  | nil => exact ⟨[], rfl, .nil⟩
  | cons m ms ih =>
    obtain ⟨rs, h1, h2⟩ := ih fun m hm => hc m (List.mem_cons_of_mem _ hm)
    obtain ⟨s, hs⟩ := hc m (List.mem_cons_self ..)
    obtain ⟨d, hd'⟩ := hd m
    refine ⟨⟨_, _, d, s.fpRate⟩ :: rs, ?_, .cons ⟨s, hs, hd', rfl, rfl, rfl⟩ h2⟩
    unfold benchRounds benchRound
    simp only
    rw [hs, Log.lift_ok_bind, hd', Log.lift_ok_bind, h1]
    show (⟨_ ++ (_ ++ []), _⟩ : Log (List Round)) = _
    rw [List.append_nil]
    rfl

theorem benchRounds_list {fmt : Fmt} {env : Env} {mc : Measure} {rng : BenchRng} {b : Bloom}
    {es : List (List U8)} {n runs : ℕ} (hd : ∀ m, ∃ d, benchmark mc runs m = .ok d)
    (hc : ∀ k, ∃ r, b.containsBytes env k = .ok r) (ms : List ℕ) :
    ∃ rs, benchRounds fmt env mc rng b es n runs ms
        = ⟨(List.zipWith (Round.text fmt) ms rs).flatten, .ok rs⟩ ∧
      List.Forall₂ (fun m r => ∃ s, benchStats env b (benchLines rng es n m) Stats.new = .ok s ∧
        benchmark mc runs m = .ok r.duration ∧ r.rate = s.fpRate ∧
        r.lines = (benchLines rng es n m).length ∧
        r.bytes = ((benchLines rng es n m).map fun l => l.2.length).sum) ms rs :=
  benchRounds_list' hd ms fun _ _ => benchStats_of Stats.new fun _ _ => hc _

theorem forall₂_mem_right {α β : Type} {R : α → β → Prop} {as : List α} {bs : List β}
    (h : List.Forall₂ R as bs) {b : β} (hb : b ∈ bs) : ∃ a ∈ as, R a b := by
  induction h with
  | nil => cases hb
  | @cons a b' as bs hab _ ih =>
    rcases List.mem_cons.1 hb with rfl | hb
    · exact ⟨a, by simp, hab⟩
    · obtain ⟨a', h1, h2⟩ := ih hb
      exact ⟨a', by simp [h1], h2⟩

theorem benchRounds_res {fmt : Fmt} {env : Env} {mc : Measure} {rng : BenchRng} {b : Bloom}
    {es : List (List U8)} {n runs : ℕ} (hd : ∀ m, ∃ d, benchmark mc runs m = .ok d)
    (hc : ∀ k, ∃ r, b.containsBytes env k = .ok r) (ms : List ℕ) :
    ∃ rs, (benchRounds fmt env mc rng b es n runs ms).res = .ok rs ∧ rs.length = ms.length ∧
      ∀ r ∈ rs.map Round.rate, ∃ m ∈ ms, ∃ s,
        benchStats env b (benchLines rng es n m) Stats.new = .ok s ∧ r = s.fpRate := by
  obtain ⟨rs, h1, h2⟩ := benchRounds_list (fmt := fmt) (rng := rng) (es := es) (n := n) hd hc ms
  refine ⟨rs, by rw [h1], h2.length_eq.symm, fun r hr => ?_⟩
  obtain ⟨x, hx, rfl⟩ := List.mem_map.1 hr
  obtain ⟨m, hm, s, k1, _, k3, _⟩ := forall₂_mem_right h2 hx
  exact ⟨m, hm, s, k1, k3⟩

/-- How `bench` ends. -/
theorem bench_eq (fmt : Fmt) (env : Env) (w : World) (h : List U8 → U64) (mc : Measure)
    (rng : BenchRng) (stdin : Stdin) (o : Benchmark) :
    bench fmt env w h mc rng stdin o = (do
      let limit ← benchLimit env.debug o.sizeMb
      let entries ← benchEntries h limit stdin.lines [] 0 []
      let b ← benchBloom env w o entries
      let _ ← showBfProperties fmt env b
      let rounds ← (benchRounds fmt env mc rng b (rng.shuffle entries)
        (o.testSize.getD entries.length) o.runs mutProbs).res
      benchVerdict b o.fpTol (mc.mean (rounds.map Round.rate))) := by
  unfold bench benchLog
  simp only [Log.res_bind, Log.res_lift, Log.res_print, (showBfPropertiesLog_eq fmt env _).1,
    Res.bind_ok]
  rcases benchLimit env.debug o.sizeMb with limit | e | _ <;> try rfl
  simp only [Res.bind_ok]
  rcases benchEntries h limit stdin.lines [] 0 [] with es | e | _ <;> try rfl
  simp only [Res.bind_ok]
  rcases benchBloom env w o es with b | e | _ <;> try rfl
  simp only [Res.bind_ok]
  rcases showBfProperties fmt env b with ls | e | _ <;> try rfl
  simp only [Res.bind_ok, Res.map]
  rcases (benchRounds fmt env mc rng b (rng.shuffle es) (o.testSize.getD es.length) o.runs
    mutProbs).res with rs | e | _ <;> try rfl
  simp only [Res.bind_ok]
  rcases benchVerdict b o.fpTol (mc.mean (rs.map Round.rate)) with _ | e | _ <;> rfl

theorem showBf_ok {env : Env} (hs : env.Small) (fmt : Fmt) {b : Bloom} (hb : b.Reach env) :
    ∃ ls, showBfProperties fmt env b = .ok ls := by
  have hsz : ∃ size, b.sizeInBytes env = .ok size := by
    cases b with
    | v1 f => exact ⟨_, (C48_v1_partial hs hb).choose_spec.1⟩
    | v2 f => exact ⟨_, (C48_v2 hb).choose_spec.1⟩
  obtain ⟨size, h⟩ := hsz
  unfold showBfProperties
  rw [h, Res.bind_ok]
  exact ⟨_, rfl⟩

theorem benchLines_length (rng : BenchRng) (es : List (List U8)) (n m : ℕ) :
    (benchLines rng es n m).length ≤ es.length := by
  simp [benchLines]

/-- The threshold of the verdict is not negative. -/
theorem threshold_nonneg {b : Bloom} (hf : fppInRange b.fpp = true) {tol : F64} {t : ℚ}
    (ht : FVal.ofBits tol = .fin t) (h0 : 0 ≤ t) :
    gt (.fin 0) (FVal.add (FVal.ofBits b.fpp) (FVal.mul (FVal.ofBits b.fpp) (FVal.ofBits tol)))
      = false := by
  obtain ⟨q, hq, hq0, hq1, _⟩ := ofBits_of_inRange hf
  have hq' : 0 ≤ q := le_trans (by positivity) hq0
  have hrnd : ∀ x : ℚ, 0 ≤ x → rnd x = .pinf ∨ ∃ v : ℚ, rnd x = .fin v ∧ 0 ≤ v := by
    intro x hx
    have hv : 0 ≤ rndQ x := le_rndQ _ isF_zero (by simpa using hx)
    unfold rnd
    simp only
    split_ifs with c1 c2
    · exact .inl rfl
    · exfalso
      have := f64Huge_pos
      linarith
    · exact .inr ⟨_, rfl, hv⟩
  have hm : FVal.mul (.fin q) (.fin t) = rnd (q * t) := rfl
  have ha : ∀ v : ℚ, FVal.add (.fin q) (.fin v) = rnd (q + v) := fun _ => rfl
  rw [hq, ht, hm]
  rcases hrnd (q * t) (by positivity) with h | ⟨v, h, hv⟩
  · rw [h]
    rfl
  · rw [h, ha]
    rcases hrnd (q + v) (by positivity) with h | ⟨u, h, hu⟩
    · rw [h]
      rfl
    · rw [h]
      simp [gt, FVal.le, hu]

theorem made_inRange {env : Env} {v : U8} {c : U64} {p : F64} {o : OptLevel} {f : Bloom}
    (h : Bloom.withVersionCapacityOpt env v c p o = .ok f) : fppInRange p = true := by
  by_contra hp
  have hv : v = 1#8 ∨ v = 2#8 := by
    rcases made_cases h with ⟨h, _⟩ | ⟨h, _⟩
    · exact .inl h
    · exact .inr h
  rw [(C44_bloom env v c p o (.wrongFpp p)).2
    (.inr ⟨hv, rfl, by rwa [← fppInRange_iff]⟩)] at h
  cases h

theorem benchBloom_from {env : Env} {w : World} {o : Benchmark} {es : List (List U8)} {b : Bloom}
    (hf : o.file = none) (h : benchBloom env w o es = .ok b) :
    ∃ lvl, Bloom.From env o.version (BitVec.ofNat 64 es.length) o.fpp lvl b := by
  unfold benchBloom at h
  rw [hf] at h
  obtain ⟨lvl, c, _, hc, hfill⟩ := benchFilter_ok h
  refine ⟨lvl, ?_⟩
  have := Bloom.From.fill es (.make hc)
  rwa [hfill] at this

theorem Bloom.From.contains_ok {env : Env} (sp : env.libm.Spec) (hs : env.Small) {v : U8}
    {cap : U64} {fpp : F64} {opt : OptLevel} {b : Bloom} (h : Bloom.From env v cap fpp opt b)
    (k : List U8) : ∃ r, b.containsBytes env k = .ok r := by
  obtain ⟨f0, _, hl⟩ := h.like hs
  cases b with
  | v1 f =>
    have hb := hl.built1
    have w := hb.reach.wf hs
    show ∃ r, f.containsBytes k = .ok r
    by_cases hm : f.bitSize = 0
    · exact ⟨_, V1.containsBytes_noHash w k ((hb.bits sp).1.1 hm)⟩
    · exact ⟨_, V1.containsBytes_eq w k hm⟩
  | v2 f =>
    have hb := hl.built2
    show ∃ r, f.contains env (.slice k) = .ok r
    by_cases hc : f.capacity = 0
    · exact ⟨_, V2.contains_noCap env _ hc⟩
    · exact ⟨_, V2.contains_eq env hb.reach.wf _ hc (hb.buckets hs sp hc)⟩

theorem benchEntries_no_panic (h : List U8 → U64) (limit : ByteSize) (ls : List (Res (List U8)))
    (marked : List U64) (size : U64) (es : List (List U8)) (hls : ∀ l ∈ ls, l ≠ .panic) :
    benchEntries h limit ls marked size es ≠ .panic := by
  induction ls generalizing marked size es with
  | nil => simp [benchEntries]
  | cons l ls ih =>
    have hls' : ∀ l ∈ ls, l ≠ .panic := fun l hl => hls l (List.mem_cons_of_mem _ hl)
    have hl := hls l (List.mem_cons_self ..)
    unfold benchEntries
    cases l with
    | err e => simp
    | panic => exact absurd rfl hl
    | ok l =>
      simp only
      split_ifs
      · simp
      · exact ih _ _ _ hls'
      · exact ih _ _ _ hls'

theorem benchEntries_length {h : List U8 → U64} {limit : ByteSize} {ls : List (Res (List U8))}
    {marked : List U64} {size : U64} {es es' : List (List U8)}
    (he : benchEntries h limit ls marked size es = .ok es') :
    es'.length ≤ es.length + ls.length := by
  induction ls generalizing marked size es with
  | nil => unfold benchEntries at he; cases he; simp
  | cons l ls ih =>
    unfold benchEntries at he
    cases l with
    | err e => cases he
    | panic => cases he
    | ok l =>
      simp only at he
      split_ifs at he
      · cases he
        simp
      · have := ih he
        simp at this ⊢
        omega
      · have := ih he
        simp at this ⊢
        omega

theorem length_linesAux (n : ℕ) (bs : List U8) : (linesAux n bs).length ≤ n := by
  induction n generalizing bs with
  | zero => simp [linesAux]
  | succ n ih =>
    unfold linesAux
    split
    · simp
    · simpa using ih _

theorem mapIdx_eq_range {α β : Type} (f : ℕ → α → β) (d : α) (l : List α) :
    l.mapIdx f = (List.range l.length).map fun i => f i (l.getD i d) := by
  refine List.ext_getElem (by simp) fun i h1 h2 => ?_
  simp only [List.length_mapIdx] at h1
  simp [List.getElem?_eq_getElem h1]

/-- The lines flagged as mutated are the mutants. -/
theorem mutatedOf_benchLines (rng : BenchRng) (es : List (List U8)) (n m : ℕ) :
    mutatedOf (benchLines rng es n m) = mutants rng es n m := by
  unfold mutatedOf benchLines mutants
  rw [mapIdx_eq_range _ [], List.filter_map, List.map_map, List.length_take]
  have hp : ∀ i ∈ List.range (min n es.length),
      ((fun x : Bool × List U8 => x.1) ∘ fun i => benchMutate rng m i ((es.take n).getD i [])) i
        = decide (rng.percent m i < m) := by
    intro i _
    simp only [Function.comp_apply, benchMutate]
    split <;> simp_all
  rw [List.filter_congr hp]
  refine List.map_congr_left fun i hi => ?_
  obtain ⟨hi, hm⟩ := List.mem_filter.1 hi
  have hlt := List.mem_range.1 hi
  have hg : (es.take n).getD i [] = es.getD i [] := by
    simp only [List.getD_eq_getElem?_getD, List.getElem?_take]
    rw [if_pos (by omega)]
  simp only [Function.comp_apply, benchMutate, hg]
  rw [if_pos (by simpa using hm), mapIdx_eq_range _ 0]

/-- The threshold of the verdict. -/
theorem threshold_eq {p t : ℚ} (hp0 : 0 ≤ p) (hp1 : p ≤ 1) (ht0 : 0 ≤ t) (ht1 : t ≤ 1) :
    FVal.add (.fin p) (FVal.mul (.fin p) (.fin t)) = .fin (rndQ (p + rndQ (p * t))) := by
  have l1 : (1 : ℚ) < f64Huge := by simpa using two_pow_lt_f64Huge (n := 0) (by norm_num)
  have l2 : (2 : ℚ) < f64Huge := by simpa using two_pow_lt_f64Huge (n := 1) (by norm_num)
  have i2 : IsF (2 : ℚ) := by simpa using isF_dyadic 2 0 (by norm_num) (by norm_num)
  obtain ⟨e1, b1⟩ := rnd_fin (K := ℚ) (x := p * t) isF_one l1 (by
    rw [abs_of_nonneg (by positivity)]
    push_cast
    nlinarith)
  have h0 := le_rndQ (p * t) isF_zero (by simp; positivity)
  obtain ⟨e2, _⟩ := rnd_fin (K := ℚ) (x := p + rndQ (p * t)) i2 l2 (by
    have := (abs_le.1 b1).2
    rw [abs_of_nonneg (by linarith)]
    push_cast
    linarith)
  show FVal.add (.fin p) (rnd (p * t)) = _
  rw [e1]
  exact e2

theorem length_readUntilLf (bs : List U8) :
    (readUntilLf bs).1.length + (readUntilLf bs).2.length = bs.length := by
  induction bs with
  | nil => rfl
  | cons b bs ih =>
    unfold readUntilLf
    split_ifs
    · simp [Nat.add_comm]
    · simp only [List.length_cons]; omega

theorem total_lineItem (l : List U8) (ls : List (Res (List U8))) :
    total (entries (lineItem l :: ls)) ≤ l.length + total (entries ls) := by
  have hstrip : (stripEol l).length ≤ l.length := by
    unfold stripEol
    simp only
    split_ifs <;> (simp; try omega)
  unfold lineItem
  split_ifs
  · show (stripEol l).length + total (entries ls) ≤ _
    omega
  · simp [entries, total]

theorem total_linesAux (n : ℕ) (bs : List U8) : total (entries (linesAux n bs)) ≤ bs.length := by
  induction n generalizing bs with
  | zero => simp [linesAux, entries, total]
  | succ n ih =>
    have h1 := length_readUntilLf bs
    unfold linesAux
    split
    · simp [entries, total]
    · rename_i l rest _ hl
      rw [hl] at h1
      have h2 := ih rest
      have h4 := total_lineItem l (linesAux n rest)
      simp only at h1
      omega

theorem total_brokenLinesAux (n : ℕ) (bs : List U8) :
    total (entries (brokenLinesAux n bs)) ≤ bs.length := by
  induction n generalizing bs with
  | zero => simp [brokenLinesAux, entries, total]
  | succ n ih =>
    have h1 := length_readUntilLf bs
    unfold brokenLinesAux
    split_ifs
    · have h2 := ih (readUntilLf bs).2
      have h4 := total_lineItem (readUntilLf bs).1 (brokenLinesAux n (readUntilLf bs).2)
      omega
    · simp [entries, total]

theorem length_brokenLinesAux (n : ℕ) (bs : List U8) :
    (brokenLinesAux n bs).length ≤ bs.length + 1 := by
  induction n generalizing bs with
  | zero => simp [brokenLinesAux]
  | succ n ih =>
    have h1 := length_readUntilLf bs
    unfold brokenLinesAux
    split_ifs with hlf
    · have h2 := ih (readUntilLf bs).2
      have h3 : (readUntilLf bs).1 ≠ [] := by
        cases bs with
        | nil => simp at hlf
        | cons b bs => unfold readUntilLf; split_ifs <;> simp
      have h4 := List.length_pos_iff.2 h3
      simp only [List.length_cons]
      omega
    · simp

/-- The lines of stdin are no longer than its content. -/
theorem total_stdin (stdin : Stdin) : total (entries stdin.lines) ≤ stdin.bytes.length := by
  unfold Stdin.lines
  split_ifs
  · exact total_brokenLinesAux _ _
  · exact total_linesAux _ _

theorem length_stdin (stdin : Stdin) : stdin.lines.length ≤ stdin.bytes.length + 1 := by
  unfold Stdin.lines
  split_ifs
  · exact length_brokenLinesAux _ _
  · exact length_linesAux _ _

theorem brokenLinesAux_item (n : ℕ) (bs : List U8) {l : Res (List U8)}
    (h : l ∈ brokenLinesAux n bs) : (∃ s, l = .ok s) ∨ ∃ e, l = .err e := by
  induction n generalizing bs with
  | zero => rw [List.mem_singleton.1 h]; exact .inr ⟨_, rfl⟩
  | succ n ih =>
    unfold brokenLinesAux at h
    split_ifs at h
    · rcases List.mem_cons.1 h with rfl | h
      · unfold lineItem
        split_ifs
        · exact .inl ⟨_, rfl⟩
        · exact .inr ⟨_, rfl⟩
      · exact ih _ h
    · rw [List.mem_singleton.1 h]; exact .inr ⟨_, rfl⟩

theorem stdin_item {stdin : Stdin} {l : Res (List U8)} (h : l ∈ stdin.lines) :
    (∃ s, l = .ok s) ∨ ∃ e, l = .err e := by
  unfold Stdin.lines at h
  split_ifs at h
  · exact brokenLinesAux_item _ _ h
  · rcases lines_item h with ⟨s, e, _⟩ | e
    · exact .inl ⟨s, e⟩
    · exact .inr ⟨_, e⟩

theorem benchLimit_iff (debug : Bool) (mb : U64) (n : ℕ) :
    (∃ l, benchLimit debug mb = .ok l ∧ l.inBytes.toNat = n)
      ↔ sizeLimit debug mb.toNat = some n := by
  have key : ∀ x : U64, (∃ l, ByteSize.fromMb debug x = .ok l ∧ l.inBytes.toNat = n) ↔
      (if debug = true ∧ 2 ^ 64 ≤ x.toNat * 2 ^ 20 then none
        else some (x.toNat * 2 ^ 20 % 2 ^ 64)) = some n := by
    intro x
    obtain ⟨h1, h2, h3⟩ := C63_from_mb debug x
    split_ifs with hc
    · rw [h2 (by omega) hc.1]
      simp
    · by_cases hx : x.toNat < 2 ^ 44
      · obtain ⟨s, e1, e2⟩ := h1 hx
        rw [e1, Nat.mod_eq_of_lt (by omega), ← e2]
        simp
      · obtain ⟨s, e1, e2⟩ := h3 (by
          cases debug with
          | false => rfl
          | true => exact absurd ⟨rfl, by omega⟩ hc)
        rw [e1, ← e2]
        simp
  unfold benchLimit sizeLimit
  by_cases h0 : mb = 0
  · subst h0
    rw [if_pos rfl, key, if_pos (show (0 : U64).toNat = 0 from rfl),
      show (BitVec.allOnes 64).toNat = 2 ^ 64 - 1 from rfl]
  · have : mb.toNat ≠ 0 := fun h => h0 (BitVec.eq_of_toNat_eq h)
    rw [if_neg h0, key, if_neg this]

theorem benchFilter_iff {env : Env} {v opt : U8} {fpp : F64} {es : List (List U8)} {g : Bloom} :
    benchFilter env v opt fpp es = .ok g ↔
    ∃ lvl b, OptLevel.tryFrom opt = .ok lvl ∧
      Bloom.withVersionCapacityOpt env v (BitVec.ofNat 64 es.length) fpp lvl = .ok b ∧
      b.fill env es = (g, .ok ()) := by
  refine ⟨benchFilter_ok, ?_⟩
  rintro ⟨lvl, b, h1, h2, h3⟩
  unfold benchFilter
  rw [h1, Res.bind_ok, (C44_params ..).1, h2, Res.bind_ok, h3]

theorem benchBloom_iff {env : Env} {w : World} {o : Benchmark} {es : List (List U8)} {b : Bloom} :
    benchBloom env w o es = .ok b ↔ Tested env w o es b := by
  unfold benchBloom
  cases hf : o.file with
  | none =>
    simp only
    rw [benchFilter_iff]
    constructor
    · rintro ⟨lvl, b₀, h1, h2, h3⟩
      exact .made hf h1 h2 h3
    · intro h
      cases h with
      | file h => rw [hf] at h; cases h
      | made _ h1 h2 h3 => exact ⟨_, _, h1, h2, h3⟩
  | some f =>
    simp only [Res.bind_eq_ok]
    constructor
    · rintro ⟨bs, h1, c, h2, u, h3, h4⟩
      cases h4
      obtain ⟨bs, rfl, _⟩ := open_loaded h1 h2
      exact .file hf h1 h2 (benchAll_iff.1 h3)
    · intro h
      cases h with
      | file h h1 h2 h3 =>
        rw [hf] at h
        cases h
        exact ⟨_, h1, _, h2, (), benchAll_iff.2 h3, rfl⟩
      | made h => rw [hf] at h; cases h

theorem setup_iff {env : Env} {w : World} {h : List U8 → U64} {stdin : Stdin} {o : Benchmark}
    {es : List (List U8)} {b : Bloom} (hlen : stdin.bytes.length < 2 ^ 64) :
    (∃ limit, benchLimit env.debug o.sizeMb = .ok limit ∧
      benchEntries h limit stdin.lines [] 0 [] = .ok es ∧ benchBloom env w o es = .ok b)
    ↔ Setup env w h stdin o es b := by
  have hsum : total (entries stdin.lines) < 2 ^ 64 := lt_of_le_of_lt (total_stdin _) hlen
  constructor
  · rintro ⟨limit, h1, h2, h3⟩
    exact ⟨⟨_, (benchLimit_iff ..).1 ⟨limit, h1, rfl⟩, (benchEntries_iff _ _ _ hsum).1 h2⟩,
      benchBloom_iff.1 h3⟩
  · rintro ⟨⟨n, h1, h2⟩, h3⟩
    obtain ⟨limit, e, rfl⟩ := (benchLimit_iff ..).2 h1
    exact ⟨limit, e, (benchEntries_iff _ _ _ hsum).2 h2, benchBloom_iff.2 h3⟩

end Poppy
