import Verif.AbstractMain
import Verif.Lemmas.AbstractCli
import Verif.Lemmas.BenchText
import Verif.Props.BenchText
import Verif.Props.AbstractCli

/-! # Helper lemmas for `C89` -/

namespace Poppy
namespace Cli

open Spec Abs

theorem containsBytes_ne_err {env : Env} (hs : env.Small) {b : Bloom} (h : b.Reach env)
    (k : List U8) (e : Error) : b.containsBytes env k ≠ .err e := by
  cases b with
  | v1 f =>
    intro hc
    have := Bloom.view_contains hs h k
    rw [hc] at this
    cases this
  | v2 f =>
    show (f.containsIter env _).unwrap ≠ _
    cases f.containsIter env (V2.buildIndexIter env (.slice k)) <;> simp [Res.unwrap]

theorem ask_eq {env : Env} (hs : env.Small) {bf : Bloom} (h : bf.Reach env) (l : List U8) :
    bf.view.ask (Bloom.machine env) (.ok l) = bf.containsBytes env l := by
  rw [ask_ok hs h]
  cases hc : bf.containsBytes env l with
  | ok b => rfl
  | err e => exact absurd hc (containsBytes_ne_err hs h _ _)
  | panic => rfl

theorem holds_abstract {env : Env} (hs : env.Small) {bf : Bloom} (h : bf.Reach env)
    (es : List (List U8)) : bf.view.holds (Bloom.machine env) es = benchAll env bf es := by
  induction es with
  | nil => rfl
  | cons e es ih =>
    rw [F.holds, benchAll, ask_eq hs h]
    cases hc : bf.containsBytes env e with
    | ok b => cases b <;> simp [ih]
    | err e => exact absurd hc (containsBytes_ne_err hs h _ _)
    | panic => rfl

theorem dataset_abstract (h : List U8 → U64) (limit : ByteSize) (ls : List (Res (List U8)))
    (marked : List U64) (size : U64) (acc : List (List U8))
    (hs : size.toNat = total acc) (hm : ∀ x, x ∈ marked ↔ x ∈ acc.map h)
    (hsum : total acc + total (entries ls) < 2 ^ 64) :
    benchEntries h limit ls marked size acc = dataset h limit.inBytes.toNat acc ls := by
  induction ls generalizing marked size acc with
  | nil => rfl
  | cons l ls ih =>
    cases l with
    | err e => rfl
    | panic => rfl
    | ok l =>
      have ht : total (entries (.ok l :: ls)) = l.length + total (entries ls) := by
        simp [entries, total]
      rw [ht] at hsum
      rw [benchEntries, dataset]
      have hc : (ByteSize.fromBytes size).cmp limit = .gt ↔ limit.inBytes.toNat < total acc := by
        rw [(C63_compare _ _).2.2.2.1, (C63_from_bytes _).1, hs]
      simp only [hc]
      by_cases hlim : limit.inBytes.toNat < total acc
      · rw [if_pos hlim, if_pos hlim]
      · rw [if_neg hlim, if_neg hlim]
        by_cases hmem : h l ∈ acc.map h
        · rw [if_pos hmem, if_neg (by simp [(hm _).2 hmem])]
          exact ih _ _ _ hs hm (by omega)
        · rw [if_neg hmem, if_pos (by simp [mt (hm _).1 hmem])]
          have hta : total (acc ++ [l]) = total acc + l.length := by simp [total]
          refine ih _ _ _ ?_ (fun x => ?_) (by omega)
          · rw [hta, BitVec.toNat_add, hs, BitVec.toNat_ofNat]
            omega
          · rw [List.mem_cons, hm, List.map_append, List.mem_append]
            simp [or_comm]

theorem tested_abstract {env : Env} (hs : env.Small) (w : World) (o : Benchmark)
    (es : List (List U8)) :
    Sim env (benchBloom env w o es) (tested (Bloom.machine env) w o es) := by
  unfold benchBloom tested
  cases hf : o.file with
  | some f =>
    simp only
    obtain ⟨h1, h2⟩ := sim_stored hs w f
    rw [h1]
    have hx : (do let r ← w.open f; let b ← Bloom.fromReader env r; let _ ← benchAll env b es; Res.ok b)
        = (w.open f >>= Bloom.fromReader env) >>= fun b => benchAll env b es >>= fun _ => Res.ok b := by
      cases w.open f <;> rfl
    rw [hx]
    generalize (w.open f >>= Bloom.fromReader env) = x at h2
    cases x with
    | err e => exact ⟨rfl, fun f hf => by cases hf⟩
    | panic => exact ⟨rfl, fun f hf => by cases hf⟩
    | ok b =>
      have hb := h2 b rfl
      show Sim env (benchAll env b es >>= fun _ => Res.ok b)
        ((b.view.holds (Bloom.machine env) es).map fun _ => b.view)
      rw [holds_abstract hs hb]
      cases benchAll env b es with
      | err e => exact ⟨rfl, fun f hf => by cases hf⟩
      | panic => exact ⟨rfl, fun f hf => by cases hf⟩
      | ok u => exact ⟨rfl, fun f hf => by cases hf; exact hb⟩
  | none =>
    simp only
    unfold benchFilter
    rw [level_abstract]
    cases OptLevel.tryFrom o.opt with
    | err e => exact ⟨rfl, fun f hf => by cases hf⟩
    | panic => exact ⟨rfl, fun f hf => by cases hf⟩
    | ok lvl =>
      rw [Res.bind_ok]
      simp only
      rw [Bloom.view_make]
      show Sim env (Bloom.withVersionCapacityOpt env o.version (BitVec.ofNat 64 es.length) o.fpp lvl
        >>= _) _
      cases hm : Bloom.withVersionCapacityOpt env o.version (BitVec.ofNat 64 es.length) o.fpp lvl with
      | err e => exact ⟨rfl, fun f hf => by cases hf⟩
      | panic => exact ⟨rfl, fun f hf => by cases hf⟩
      | ok b =>
        have hb := Bloom.make_reach hm
        have hfr := Bloom.fill_reach es hb
        rw [Res.bind_ok]
        simp only [Res.map]
        rw [Bloom.view_fill hs es hb]
        rcases hx : b.fill env es with ⟨g, r⟩
        rw [hx] at hfr
        cases r with
        | err e => exact ⟨rfl, fun f hf => by cases hf⟩
        | panic => exact ⟨rfl, fun f hf => by cases hf⟩
        | ok u => exact ⟨rfl, fun f hf => by cases hf; exact hfr⟩

theorem stats_abstract {env : Env} (hs : env.Small) {bf : Bloom} (h : bf.Reach env)
    (ls : List (Bool × List U8)) (s : Stats) :
    (benchStats env bf ls s).map (fun _ => ())
      = firstFailure ((ls.map Prod.snd).map fun l => bf.view.ask (Bloom.machine env) (.ok l)) := by
  induction ls generalizing s with
  | nil => rfl
  | cons l ls ih =>
    obtain ⟨m, l⟩ := l
    rw [benchStats, List.map_cons, List.map_cons, ask_eq hs h]
    cases bf.containsBytes env l with
    | ok b => exact ih _
    | err e => rfl
    | panic => rfl

theorem values_text {env : Env} (hs : env.Small) (fmt : Fmt) {b : Bloom} (hb : b.Reach env) :
    showBfPropertiesLog fmt env b = ⟨(b.view.values.text fmt "").tail, .ok ()⟩ := by
  obtain ⟨k1, k2⟩ := showBfPropertiesLog_eq fmt env b
  have hsz := Bloom.view_size hs hb
  obtain ⟨size, hsize⟩ : ∃ size, b.sizeInBytes env = .ok size := by
    cases hx : b.sizeInBytes env with
    | ok n => exact ⟨n, rfl⟩
    | err e => rw [hx] at hsz; cases hsz
    | panic => rw [hx] at hsz; cases hsz
  rw [hsize] at hsz
  have hnum : b.view.size = size.toNat := by injection hsz
  have key : showBfProperties fmt env b = .ok (b.view.values.text fmt "").tail := by
    unfold showBfProperties
    rw [hsize]
    simp only [Res.bind_ok, Shown.text, F.values, List.tail_cons, hnum]
    cases b with
    | v1 f => simp [Bloom.view, V1.view, F.version, F.cap, F.count, F.fpp, F.data, Bloom.version,
        Bloom.capacity, Bloom.countEstimate, V1.countEstimate, Bloom.fpp, Bloom.data]
    | v2 f => simp [Bloom.view, V2.view, F.version, F.cap, F.count, F.fpp, F.data, Bloom.version,
        Bloom.capacity, Bloom.countEstimate, V2.countEstimate, Bloom.fpp, Bloom.data]
  rw [key] at k1
  have k3 := k2 _ key
  rcases hx : showBfPropertiesLog fmt env b with ⟨x, y⟩
  rw [hx] at k1 k3
  simp only at k1 k3
  rw [k1, k3]
  rfl

theorem round_abstract {env : Env} (hs : env.Small) (fmt : Fmt) {bf : Bloom} (h : bf.Reach env)
    (mc : Measure) (rng : BenchRng) (es : List (List U8)) (n runs p : ℕ) (hn : es.length < 2 ^ 53) :
    benchRound fmt env mc rng bf es n runs p
      = match bf.view.round (Bloom.machine env) mc rng es n runs p with
        | .ok r => ⟨roundText fmt p r, .ok r⟩
        | .err e => ⟨[], .err e⟩
        | .panic => ⟨[], .panic⟩ := by
  have h1 := stats_abstract hs h (benchLines rng es n p) Stats.new
  rw [C88_queried] at h1
  unfold benchRound F.round
  simp only
  rw [← h1]
  cases hst : benchStats env bf (benchLines rng es n p) Stats.new with
  | err e => rfl
  | panic => rfl
  | ok s =>
    rw [Log.lift_ok_bind]
    cases hd : benchmark mc runs p with
    | err e => rfl
    | panic => rfl
    | ok d =>
      rw [Log.lift_ok_bind]
      have hlen : (benchLines rng es n p).length < 2 ^ 53 :=
        lt_of_le_of_lt (benchLines_length ..) hn
      obtain ⟨c1, c2⟩ := rate_of_round hlen hst
      rw [mutatedOf_benchLines] at c1 c2
      have hrate : s.fpRate = share ((mutants rng es n p).map fun l =>
          decide (bf.view.ask (Bloom.machine env) (.ok l) = .ok true)) := by
        unfold share
        by_cases hM : mutants rng es n p = []
        · rw [hM, c1.2 hM]; rfl
        · obtain ⟨q, q1, _, _, q4, _⟩ := c2 hM
          rw [if_neg (by simpa using hM), q1, q4, List.length_map, List.count_eq_countP,
            List.countP_map]
          congr 3
          simp only [Function.comp_def, ask_eq hs h, beq_true]
      rw [bytes_benchLines, hrate, show (benchLines rng es n p).length = (es.take n).length by
        simp [benchLines]]
      rfl

theorem rounds_abstract {env : Env} (hs : env.Small) (fmt : Fmt) {bf : Bloom} (h : bf.Reach env)
    (mc : Measure) (rng : BenchRng) (es : List (List U8)) (n runs : ℕ) (hn : es.length < 2 ^ 53)
    (ps : List ℕ) {rs : List (Res Round)}
    (hrs : rs = ps.map (bf.view.round (Bloom.machine env) mc rng es n runs)) :
    benchRounds fmt env mc rng bf es n runs ps
      = ⟨(List.zipWith (roundText fmt) ps (beforeFailure rs)).flatten,
          (firstFailure rs).map fun _ => beforeFailure rs⟩ := by
  subst hrs
  induction ps with
  | nil => rfl
  | cons p ps ih =>
    rw [benchRounds, round_abstract hs fmt h _ _ _ _ _ _ hn, List.map_cons]
    cases bf.view.round (Bloom.machine env) mc rng es n runs p with
    | err e => rfl
    | panic => rfl
    | ok r =>
      simp only
      rw [Log.bind_ok, ih]
      simp only [firstFailure, beforeFailure]
      cases firstFailure (ps.map (bf.view.round (Bloom.machine env) mc rng es n runs)) with
      | ok u =>
        simp only [Res.map]
        rw [Log.bind_ok]
        simp [pure]
      | err e => rfl
      | panic => rfl

theorem limit_abstract (debug : Bool) (mb : U64) :
    (benchLimit debug mb = .panic ∧ sizeLimit debug mb.toNat = none) ∨
    ∃ l, benchLimit debug mb = .ok l ∧ sizeLimit debug mb.toNat = some l.inBytes.toNat := by
  cases hl : benchLimit debug mb with
  | ok l => exact .inr ⟨l, rfl, (benchLimit_iff ..).1 ⟨l, hl, rfl⟩⟩
  | err e =>
    exfalso
    have key : ∀ x, ByteSize.fromMb debug x ≠ .err e := by
      intro x
      unfold ByteSize.fromMb mulU64
      split_ifs <;> simp
    unfold benchLimit at hl
    split_ifs at hl
    · exact key _ hl
    · exact key _ hl
  | panic =>
    refine .inl ⟨rfl, ?_⟩
    cases hx : sizeLimit debug mb.toNat with
    | none => rfl
    | some n =>
      obtain ⟨l, h1, _⟩ := (benchLimit_iff ..).2 hx
      rw [hl] at h1
      cases h1

theorem verdict_abstract (b : Bloom) (tol : F64) (avg : FVal) :
    benchVerdict b tol avg = if larger avg (FVal.add (FVal.ofBits b.view.fpp)
        (FVal.mul (FVal.ofBits b.view.fpp) (FVal.ofBits tol))) then
      .err (.other "bloom filter fp rate is not respected") else .ok () := by
  have hv : b.view.fpp = b.fpp := by cases b <;> rfl
  rw [hv]
  unfold benchVerdict larger
  simp only
  by_cases h : avg = .nan
  · subst h
    rw [if_neg (fun x => x.1 rfl), if_neg]
    simp only [Bool.and_eq_true, not_and]
    intro h
    exfalso
    revert h
    cases FVal.add (FVal.ofBits b.fpp) (FVal.mul (FVal.ofBits b.fpp) (FVal.ofBits tol)) <;>
      simp [FVal.le]
  · by_cases hg : gt avg (FVal.add (FVal.ofBits b.fpp) (FVal.mul (FVal.ofBits b.fpp)
      (FVal.ofBits tol))) = true
    · rw [if_pos ⟨h, hg⟩]
      exact (if_pos hg).symm
    · rw [if_neg (fun x => hg x.2)]
      exact (if_neg hg).symm

theorem stdinItems_true (stdin : Stdin) : stdinItems stdin true [] = stdin.lines := by
  rw [stdin_items]
  exact if_pos (.inl rfl)

theorem bench_abstract (t : Libs) {env : Env} (hs : env.Small) (w : World) (mc : Measure)
    (rng : BenchRng) (stdin : Stdin) (o : Benchmark) (hlen : stdin.bytes.length < 2 ^ 52) :
    benchLog t.fmt env w t.hash mc rng stdin o
      = ⟨(benchCmd t (Bloom.machine env) env.debug w mc rng stdin o).1,
        (benchCmd t (Bloom.machine env) env.debug w mc rng stdin o).2⟩ := by
  unfold benchLog benchCmd
  rcases limit_abstract env.debug o.sizeMb with ⟨h1, h2⟩ | ⟨l, h1, h2⟩
  · rw [h1, h2]; rfl
  · rw [h1, h2, Log.lift_ok_bind, stdinItems_true]
    have hsum : total (entries stdin.lines) < 2 ^ 64 :=
      lt_of_le_of_lt (total_stdin _) (lt_trans hlen (by norm_num))
    rw [dataset_abstract t.hash l stdin.lines [] 0 [] rfl (by simp) (by simpa [total] using hsum)]
    simp only
    cases hd : dataset t.hash l.inBytes.toNat [] stdin.lines with
    | err e => rfl
    | panic => rfl
    | ok es =>
      have hes : es.length < 2 ^ 53 := by
        rw [← dataset_abstract t.hash l stdin.lines [] 0 [] rfl (by simp)
          (by simpa [total] using hsum)] at hd
        have h1 := benchEntries_length hd
        have h2 := length_stdin stdin
        rw [List.length_nil] at h1
        omega
      obtain ⟨g1, g2⟩ := tested_abstract hs w o es
      simp only [Log.lift_ok_bind, Log.print_bind]
      rw [g1]
      cases hb : benchBloom env w o es with
      | err e => simp only [Res.map, Log.lift_err_bind]; unfold benchHead; rw [benchTitle_eq]; rfl
      | panic => simp only [Res.map, Log.lift_panic_bind]; unfold benchHead; rw [benchTitle_eq]; rfl
      | ok b =>
        have hr := g2 b hb
        simp only [Res.map, Log.lift_ok_bind, values_text hs t.fmt hr]
        rw [rounds_abstract hs t.fmt hr mc rng (rng.shuffle es) (o.testSize.getD es.length) o.runs
          (by rwa [(rng.shuffle_perm es).length_eq]) mutProbs rfl]
        rw [show mutProbs = [10, 20, 30, 40, 50, 60, 70, 80, 90, 100] from rfl]
        generalize ([10, 20, 30, 40, 50, 60, 70, 80, 90, 100] : List ℕ).map (b.view.round
          (Bloom.machine env) mc rng (rng.shuffle es) (o.testSize.getD es.length) o.runs) = rs
        have hhead : ∀ x : List String, benchHead t.fmt o es (b.view.values.text t.fmt "").tail ++ x
            = "Preparing dataset" :: benchTitle o :: ((b.view.values.text t.fmt "").tail ++
              ("\nQuery performance:" :: ("\tdataset size: " ++
                (ByteSize.fromBytes (BitVec.ofNat 64 (es.map List.length).sum)).display t.fmt.f64Prec1 ++
                " (" ++ t.fmt.f64 (FVal.round
                  (ByteSize.fromBytes (BitVec.ofNat 64 (es.map List.length).sum)).inMb) ++ "MB)") ::
                ("\ttest size: " ++ t.fmt.u64 (BitVec.ofNat 64 (o.testSize.getD es.length))) ::
                "" :: x)) := by
          intro x
          unfold benchHead
          rw [benchTitle_eq]
          simp [total]
          rfl
        cases hf : firstFailure rs with
        | err e =>
          simp only [Res.map, hhead]
          rfl
        | panic =>
          simp only [Res.map, hhead]
          rfl
        | ok u =>
          simp only [Res.map, Log.bind_ok, verdict_abstract]
          split_ifs with hv
          · simp only [Log.lift_err_bind, List.append_nil, hhead]
          · simp only [Log.lift_ok_bind, hhead]
            rfl

theorem showLog_abstract (fmt : Fmt) (env : Env) (w : World) (file : Path)
    (hb : ∀ bs, w.fs file = some bs → bs.length < 2 ^ 50) :
    showLog fmt env w file
      = ⟨(showRun fmt env.debug w file).1, (showRun fmt env.debug w file).2⟩ := by
  unfold showRun
  rw [← metadata_abstract env w file hb]
  unfold showLog
  cases ho : w.open file with
  | err e => rfl
  | panic => rfl
  | ok r =>
    rw [Res.bind_ok, Log.lift_ok_bind]
    cases hr : Bloom.partialFromReader env r with
    | err e => rfl
    | panic => rfl
    | ok b =>
      rw [Log.lift_ok_bind]
      simp only [Res.map]
      unfold showBfPropertiesLog
      rw [size_abstract]
      have hv : fmt.u64 (BitVec.setWidth 64 b.version) = fmt.u64 (BitVec.ofNat 64 (shown b.peek).version) ∧
          b.capacity = BitVec.ofNat 64 (shown b.peek).capacity ∧
          b.countEstimate = BitVec.ofNat 64 (shown b.peek).count ∧
          b.fpp = BitVec.ofNat 64 (shown b.peek).fpp ∧
          b.data.length = (shown b.peek).data := by
        cases b with
        | v1 f => simp [shown, Bloom.peek, V1.content, Bloom.version, Bloom.capacity,
            Bloom.countEstimate, V1.countEstimate, Bloom.fpp, Bloom.data]
        | v2 f => simp [shown, Bloom.peek, V2.content, Bloom.version, Bloom.capacity,
            Bloom.countEstimate, V2.countEstimate, Bloom.fpp, Bloom.data]
      obtain ⟨v1, v2, v3, v4, v5⟩ := hv
      rw [v1, v2, v3, v4, v5]
      split_ifs with h
      · rfl
      · rfl

theorem printed_abstract (l : Log Unit) (w : World) (room : Option ℕ) :
    (w, Printed.text (l.to ⟨[], room⟩).1.lines, some (l.to ⟨[], room⟩).2)
      = (w, (Abs.printed room (l.out, l.res)).1, some (Abs.printed room (l.out, l.res)).2) := by
  rw [Log.to_eq]
  cases room with
  | none => simp [Stdout.after, Stdout.Takes, Abs.printed]
  | some n =>
    by_cases h : (⟨[], some n⟩ : Stdout String).Takes l.out
    · have h' : l.out.length ≤ n := h
      simp only [if_pos h, Stdout.after, Abs.printed, List.nil_append, if_pos h']
    · have h' : ¬ l.out.length ≤ n := h
      simp only [if_neg h, Stdout.after, Abs.printed, List.nil_append, if_neg h']

end Cli
end Poppy
