import Verif.Lemmas.Readers

/-!
# How many bytes loading takes from the reader: lemmas
-/

namespace Poppy.Pieces

variable {σ α : Type}

/-- `used s` says how many bytes of the reader were used up.  Reading uses what it gives; a seek may
waste up to `slack` bytes that were read ahead. -/
structure Counted (S : Source σ) (inv : σ → Prop) (used : σ → Int) (slack : Int) : Prop where
  slack_nonneg : 0 ≤ slack
  data : ∀ n s bs s', inv s → S.read n s = .data bs s' →
    inv s' ∧ bs.length ≤ n ∧ used s' ≤ used s + bs.length
  interrupted : ∀ n s s', inv s → S.read n s = .interrupted s' → inv s' ∧ used s' ≤ used s
  toEnd : ∀ s bs s', inv s → S.readToEnd s = .ok (bs, s') → inv s' ∧ used s' ≤ used s + bs.length
  seek : ∀ d s s', inv s → S.seek d s = .ok s' → inv s' ∧ used s' ≤ used s + slack

/-- An operation uses at most `c` bytes. -/
def Costs (inv : σ → Prop) (used : σ → Int) (s : σ) (c : α → Int) (x : Res (α × σ)) : Prop :=
  ∀ a s', x = .ok (a, s') → inv s' ∧ used s' ≤ used s + c a

theorem Costs.bind {β : Type} {inv : σ → Prop} {used : σ → Int} {s : σ} {c : α → Int} {d e : β → Int}
    {x : Res (α × σ)} (hx : Costs inv used s c x) {f : α × σ → Res (β × σ)}
    (hf : ∀ a s', inv s' → Costs inv used s' d (f (a, s'))) (he : ∀ a b, c a + d b ≤ e b) :
    Costs inv used s e (x >>= f) := by
  intro b s2 h
  cases x with
  | ok x =>
    obtain ⟨a, s'⟩ := x
    obtain ⟨h1, h2⟩ := hx a s' rfl
    obtain ⟨h3, h4⟩ := hf a s' h1 b s2 h
    have := he a b
    exact ⟨h3, by omega⟩
  | err e => cases h
  | panic => cases h

/-! ## The scripted reader -/

theorem Script.read_given {n : Nat} {s : Script} : match s.read n with
    | .data bs s' => bs.length ≤ n ∧ s'.given = s.given + bs.length
    | .interrupted s' => s'.given = s.given
    | .error _ => True := by
  have key : ∀ m (s : Script), m ≤ n → match s.deliver m with
      | .data bs s' => bs.length ≤ n ∧ s'.given = s.given + bs.length
      | .interrupted s' => s'.given = s.given
      | .error _ => True := by
    intro m s hm
    obtain ⟨⟨data, pos, failAt⟩, es, g⟩ := s
    unfold Script.deliver
    cases failAt with
    | none =>
      refine ⟨?_, rfl⟩
      simp only [List.length_take]
      omega
    | some k =>
      dsimp only
      by_cases h1 : k ≤ data.length
      · rw [if_pos h1]
        by_cases h2 : k ≤ pos
        · rw [if_pos h2]
          trivial
        · rw [if_neg h2]
          refine ⟨?_, rfl⟩
          simp only [List.length_take]
          omega
      · rw [if_neg h1]
        refine ⟨?_, rfl⟩
        simp only [List.length_take]
        omega
  obtain ⟨r, es, g⟩ := s
  unfold Script.read
  cases es with
  | nil => exact key n ⟨r, [], g⟩ (le_refl _)
  | cons e es =>
    cases e with
    | interrupt => exact rfl
    | atMost m => exact key (min n (m + 1)) ⟨r, es, g⟩ (by omega)

theorem Script.toEnd_given (sizes : Nat → Nat) (fuel : Nat) : ∀ i (s : Script) bs s',
    s.readToEndLoop sizes fuel i = .ok (bs, s') → s'.given = s.given + bs.length := by
  induction fuel with
  | zero => intro i s bs s' h; cases h
  | succ fuel ih =>
    intro i s bs s' h
    unfold Script.readToEndLoop at h
    have hg := Script.read_given (n := sizes i + 1) (s := s)
    cases hr : s.read (sizes i + 1) with
    | error k => rw [hr] at h; cases h
    | interrupted s2 =>
      rw [hr] at h hg
      have hg : s2.given = s.given := hg
      have := ih _ _ _ _ h
      omega
    | data cs s2 =>
      rw [hr] at h hg
      obtain ⟨_, hg⟩ := hg
      cases cs with
      | nil => cases h; exact hg
      | cons c t =>
        dsimp only at h
        cases hl : s2.readToEndLoop sizes fuel (i + 1) with
        | ok x =>
          obtain ⟨rest, s3⟩ := x
          rw [hl] at h
          have := ih _ _ _ _ hl
          cases h
          rw [List.length_append]
          omega
        | err e => rw [hl] at h; cases h
        | panic => rw [hl] at h; cases h

theorem counted_scripted (sizes : Nat → Nat) :
    Counted (scripted sizes) (fun _ => True) (fun s => (s.given : Int)) 0 where
  slack_nonneg := le_refl _
  data := fun n s bs s' _ h => by
    have hg := Script.read_given (n := n) (s := s)
    rw [show s.read n = _ from h] at hg
    obtain ⟨h1, h2⟩ := hg
    exact ⟨trivial, h1, by omega⟩
  interrupted := fun n s s' _ h => by
    have hg := Script.read_given (n := n) (s := s)
    rw [show s.read n = _ from h] at hg
    have hg : s'.given = s.given := hg
    exact ⟨trivial, by omega⟩
  toEnd := fun s bs s' _ h => by
    have := Script.toEnd_given sizes _ _ _ _ _ h
    exact ⟨trivial, by omega⟩
  seek := fun d s s' _ h => by
    have h : s.seek d = .ok s' := h
    unfold Script.seek at h
    dsimp only at h
    split at h
    · cases h
    · cases h
      exact ⟨trivial, by simp⟩

/-! ## `BufReader` -/

section
variable {S : Source σ} {inv : σ → Prop} {used : σ → Int} {slack : Int}

/-- What was read ahead is not used up. -/
def Buf.net (used : σ → Int) (b : Buf σ) : Int := used b.inner - b.rest.length

/-- The buffer has its size. -/
def Buf.Cap (inv : σ → Prop) (b : Buf σ) : Prop := inv b.inner ∧ b.buf.length ≤ bufCap

theorem Buf.net_empty (s : σ) : Buf.net used ⟨s, [], 0⟩ = used s := by simp [Buf.net, Buf.rest]

theorem Buf.cap_empty {s : σ} (h : inv s) : Buf.Cap inv ⟨s, [], 0⟩ := ⟨h, by simp⟩

theorem Buf.rest_le {b : Buf σ} (h : Buf.Cap inv b) : b.rest.length ≤ bufCap := by
  have := h.2
  simp only [Buf.rest, List.length_drop]
  omega

theorem Buf.fill_data (hS : Counted S inv used slack) {b : Buf σ} (h : Buf.Cap inv b) {bs : List U8}
    {b' : Buf σ} (hf : b.fill S = .data bs b') :
    Buf.Cap inv b' ∧ bs = b'.rest ∧ Buf.net used b' ≤ Buf.net used b := by
  unfold Buf.fill at hf
  split at hf
  · rename_i hc
    have hr : b.rest = [] := by simp [Buf.rest, hc]
    cases he : S.read bufCap b.inner with
    | data cs s =>
      rw [he] at hf
      cases hf
      obtain ⟨h1, h2, h3⟩ := hS.data _ _ _ _ h.1 he
      refine ⟨⟨h1, h2⟩, by simp [Buf.rest], ?_⟩
      simp only [Buf.net, hr, List.length_nil]
      simp only [Buf.rest, List.drop_zero]
      omega
    | interrupted s => rw [he] at hf; cases hf
    | error k => rw [he] at hf; cases hf
  · cases hf
    exact ⟨h, rfl, le_refl _⟩

theorem Buf.fill_interrupted (hS : Counted S inv used slack) {b : Buf σ} (h : Buf.Cap inv b)
    {b' : Buf σ} (hf : b.fill S = .interrupted b') :
    Buf.Cap inv b' ∧ Buf.net used b' ≤ Buf.net used b := by
  unfold Buf.fill at hf
  split at hf
  · rename_i hc
    have hr : b.rest = [] := by simp [Buf.rest, hc]
    cases he : S.read bufCap b.inner with
    | data cs s => rw [he] at hf; cases hf
    | interrupted s =>
      rw [he] at hf
      cases hf
      obtain ⟨h1, h2⟩ := hS.interrupted _ _ _ h.1 he
      refine ⟨Buf.cap_empty h1, ?_⟩
      rw [Buf.net_empty]
      simp only [Buf.net, hr, List.length_nil]
      omega
    | error k => rw [he] at hf; cases hf
  · cases hf

theorem counted_buffered (hS : Counted S inv used slack) :
    Counted (buffered S) (Buf.Cap inv) (Buf.net used) (2 * slack + bufCap) where
  slack_nonneg := by have := hS.slack_nonneg; omega
  data := fun n b bs b' h hr => by
    have hr : b.read S n = .data bs b' := hr
    unfold Buf.read at hr
    split at hr
    · rename_i hc
      have hr0 : b.rest = [] := by simp [Buf.rest, hc.1]
      cases he : S.read n b.inner with
      | data cs s =>
        rw [he] at hr
        cases hr
        obtain ⟨h1, h2, h3⟩ := hS.data _ _ _ _ h.1 he
        refine ⟨Buf.cap_empty h1, h2, ?_⟩
        rw [Buf.net_empty]
        simp only [Buf.net, hr0, List.length_nil]
        omega
      | interrupted s => rw [he] at hr; cases hr
      | error k => rw [he] at hr; cases hr
    · cases he : b.fill S with
      | data cs b2 =>
        rw [he] at hr
        cases hr
        obtain ⟨h1, h2, h3⟩ := Buf.fill_data hS h he
        refine ⟨⟨h1.1, h1.2⟩, by simp only [List.length_take]; omega, ?_⟩
        have hl := congrArg List.length h2
        simp only [Buf.rest, List.length_drop] at hl
        simp only [Buf.net, Buf.rest, List.length_drop, List.length_take] at h3 ⊢
        omega
      | interrupted s => rw [he] at hr; cases hr
      | error k => rw [he] at hr; cases hr
  interrupted := fun n b b' h hr => by
    have hr : b.read S n = .interrupted b' := hr
    unfold Buf.read at hr
    split at hr
    · rename_i hc
      have hr0 : b.rest = [] := by simp [Buf.rest, hc.1]
      cases he : S.read n b.inner with
      | data cs s => rw [he] at hr; cases hr
      | interrupted s =>
        rw [he] at hr
        cases hr
        obtain ⟨h1, h2⟩ := hS.interrupted _ _ _ h.1 he
        refine ⟨Buf.cap_empty h1, ?_⟩
        rw [Buf.net_empty]
        simp only [Buf.net, hr0, List.length_nil]
        omega
      | error k => rw [he] at hr; cases hr
    · cases he : b.fill S with
      | data cs b2 => rw [he] at hr; cases hr
      | interrupted s =>
        rw [he] at hr
        cases hr
        exact Buf.fill_interrupted hS h he
      | error k => rw [he] at hr; cases hr
  toEnd := fun b bs b' h hr => by
    have hr : b.readToEnd S = .ok (bs, b') := hr
    unfold Buf.readToEnd at hr
    cases he : S.readToEnd b.inner with
    | ok x =>
      obtain ⟨cs, s⟩ := x
      rw [he] at hr
      cases hr
      obtain ⟨h1, h2⟩ := hS.toEnd _ _ _ h.1 he
      refine ⟨Buf.cap_empty h1, ?_⟩
      rw [Buf.net_empty, List.length_append]
      simp only [Buf.net]
      push_cast
      omega
    | err e => rw [he] at hr; cases hr
    | panic => rw [he] at hr; cases hr
  seek := fun d b b' h hr => by
    have hr : b.seek S d = .ok b' := hr
    have hl := Buf.rest_le h
    have hsl := hS.slack_nonneg
    unfold Buf.seek at hr
    dsimp only at hr
    split at hr
    · cases he : S.seek (d - b.rest.length) b.inner with
      | ok s =>
        rw [he] at hr
        cases hr
        obtain ⟨h1, h2⟩ := hS.seek _ _ _ h.1 he
        refine ⟨Buf.cap_empty h1, ?_⟩
        rw [Buf.net_empty]
        simp only [Buf.net]
        omega
      | err e => rw [he] at hr; cases hr
      | panic => rw [he] at hr; cases hr
    · cases he : S.seek (-b.rest.length) b.inner with
      | ok s =>
        rw [he] at hr
        dsimp only at hr
        obtain ⟨h1, h2⟩ := hS.seek _ _ _ h.1 he
        cases he2 : S.seek d s with
        | ok s2 =>
          rw [he2] at hr
          cases hr
          obtain ⟨h3, h4⟩ := hS.seek _ _ _ h1 he2
          refine ⟨Buf.cap_empty h3, ?_⟩
          rw [Buf.net_empty]
          simp only [Buf.net]
          omega
        | err e => rw [he2] at hr; cases hr
        | panic => rw [he2] at hr; cases hr
      | err e => rw [he] at hr; cases hr
      | panic => rw [he] at hr; cases hr

theorem readExactLoop_costs (hS : Counted S inv used slack) (fuel : Nat) : ∀ (n : Nat) s, inv s →
    Costs inv used s (fun _ => (n : Int)) (readExactLoop S fuel n s) := by
  induction fuel with
  | zero =>
    intro n s hi a s' h
    cases n with
    | zero => cases h; exact ⟨hi, by simp⟩
    | succ n => cases h
  | succ fuel ih =>
    intro n s hi a s' h
    cases n with
    | zero => cases h; exact ⟨hi, by simp⟩
    | succ n =>
      unfold readExactLoop at h
      cases hr : S.read (n + 1) s with
      | error k => rw [hr] at h; cases h
      | interrupted s2 =>
        rw [hr] at h
        obtain ⟨h1, h2⟩ := hS.interrupted _ _ _ hi hr
        obtain ⟨h3, h4⟩ := ih _ _ h1 _ _ h
        exact ⟨h3, by omega⟩
      | data bs s2 =>
        rw [hr] at h
        obtain ⟨h1, h2, h3⟩ := hS.data _ _ _ _ hi hr
        cases bs with
        | nil => cases h
        | cons c t =>
          dsimp only at h
          generalize c :: t = bs at *
          cases hl : readExactLoop S fuel (n + 1 - bs.length) s2 with
          | ok x =>
            obtain ⟨rest, s3⟩ := x
            rw [hl] at h
            obtain ⟨h4, h5⟩ := ih _ _ h1 _ _ hl
            cases h
            refine ⟨h4, ?_⟩
            push_cast [Nat.cast_sub h2] at h5 ⊢
            omega
          | err e => rw [hl] at h; cases h
          | panic => rw [hl] at h; cases h

theorem Buf.readExact_costs (hS : Counted S inv used slack) (n : Nat) (b : Buf σ) (h : Buf.Cap inv b) :
    Costs (Buf.Cap inv) (Buf.net used) b (fun _ => (n : Int)) (b.readExact S n) := by
  unfold Buf.readExact
  split
  · rename_i hn
    intro a b' he
    cases he
    refine ⟨⟨h.1, h.2⟩, ?_⟩
    simp only [Buf.rest, List.length_drop] at hn
    simp only [Buf.net, Buf.rest, List.length_drop]
    omega
  · exact readExactLoop_costs (counted_buffered hS) _ n b h

theorem Buf.seekRelative_costs (hS : Counted S inv used slack) (off : U64) (b : Buf σ)
    (h : Buf.Cap inv b) :
    Costs (Buf.Cap inv) (Buf.net used) b (fun _ => 2 * slack + bufCap) (b.seekRelative S off) := by
  intro a b' he
  unfold Buf.seekRelative at he
  dsimp only at he
  split at he
  · cases he
    have := Buf.rest_le h
    have := hS.slack_nonneg
    refine ⟨⟨h.1, h.2⟩, ?_⟩
    simp only [Buf.net]
    omega
  · cases hs : b.seek S off.toInt with
    | ok b2 =>
      rw [hs] at he
      cases he
      exact (counted_buffered hS).seek _ _ _ h hs
    | err e => rw [hs] at he; cases he
    | panic => rw [hs] at he; cases he

theorem readLeU64_costs (hS : Counted S inv used slack) (b : Buf σ) (h : Buf.Cap inv b) :
    Costs (Buf.Cap inv) (Buf.net used) b (fun _ => 8) (readLeU64 S b) := by
  intro a b' he
  unfold readLeU64 at he
  cases hr : b.readExact S 8 with
  | ok x =>
    rw [hr] at he
    obtain ⟨bs, b2⟩ := x
    cases he
    exact Buf.readExact_costs hS 8 b h _ _ hr
  | err e => rw [hr] at he; cases he
  | panic => rw [hr] at he; cases he

theorem readFlags_costs (hS : Counted S inv used slack) (b : Buf σ) (h : Buf.Cap inv b) :
    Costs (Buf.Cap inv) (Buf.net used) b (fun _ => 8) (readFlags S b) := by
  unfold readFlags
  refine Costs.bind (c := fun _ => 8) (d := fun _ => 0) (Buf.readExact_costs hS 8 b h)
    (fun bs b' h' => ?_) (fun _ _ => by norm_num)
  intro f b2 he
  dsimp only at he
  cases hf : Flags.fromBytes bs with
  | ok fl => rw [hf] at he; cases he; exact ⟨h', by simp⟩
  | err e => rw [hf] at he; cases he
  | panic => rw [hf] at he; cases he

theorem readBitset_costs (hS : Counted S inv used slack) (env : Env) (m : U64) (b : Buf σ)
    (h : Buf.Cap inv b) : Costs (Buf.Cap inv) (Buf.net used) b (fun _ => 2 * slack + bufCap)
      (readBitset S env m true b) := by
  intro a b' he
  unfold readBitset at he
  simp only [if_true] at he
  cases hm : mulU64 env.debug (u64SizeFor m) 8#64 with
  | ok off =>
    rw [hm] at he
    simp only [Res.bind_ok] at he
    cases hs : b.seekRelative S off with
    | ok x => rw [hs] at he; cases he; exact Buf.seekRelative_costs hS off b h _ _ hs
    | err e => rw [hs] at he; cases he
    | panic => rw [hs] at he; cases he
  | err e => rw [hm] at he; cases he
  | panic => rw [hm] at he; cases he

theorem readCache_costs (hS : Counted S inv used slack) (env : Env) (m : U64) (b : Buf σ)
    (h : Buf.Cap inv b) : Costs (Buf.Cap inv) (Buf.net used) b (fun _ => 2 * slack + bufCap)
      (readCache S env m true b) := by
  intro a b' he
  unfold readCache at he
  simp only [if_true] at he
  cases hs : b.seekRelative S (byteCapFromBitCap m) with
  | ok x => rw [hs] at he; cases he; exact Buf.seekRelative_costs hS _ b h _ _ hs
  | err e => rw [hs] at he; cases he
  | panic => rw [hs] at he; cases he

theorem readAllBuckets_costs (hS : Counted S inv used slack) (env : Env) (n : U64) (b : Buf σ)
    (h : Buf.Cap inv b) : Costs (Buf.Cap inv) (Buf.net used) b (fun _ => 2 * slack + bufCap)
      (readAllBuckets S env n true b) := by
  intro a b' he
  unfold readAllBuckets at he
  simp only [if_true] at he
  cases hm : mulU64 env.debug n (BitVec.ofNat 64 BUCKET_SIZE) with
  | ok off =>
    rw [hm] at he
    simp only [Res.bind_ok] at he
    cases hs : b.seekRelative S off with
    | ok x => rw [hs] at he; cases he; exact Buf.seekRelative_costs hS off b h _ _ hs
    | err e => rw [hs] at he; cases he
    | panic => rw [hs] at he; cases he
  | err e => rw [hm] at he; cases he
  | panic => rw [hm] at he; cases he

theorem Buf.toEnd_costs (hS : Counted S inv used slack) (b : Buf σ) (h : Buf.Cap inv b) :
    Costs (Buf.Cap inv) (Buf.net used) b (fun bs => (bs.length : Int)) (b.readToEnd S) :=
  fun bs b' he => (counted_buffered hS).toEnd b bs b' h he

theorem v1_partial_costs (hS : Counted S inv used slack) (env : Env) (flags : Flags) (s : σ) (h : inv s) :
    Costs (Buf.Cap inv) (Buf.net used) (Buf.new s)
      (fun f => 40 + (2 * slack + bufCap) + (f.data.length : Int))
      (v1FromReaderWithFlags S env flags true s) := by
  unfold v1FromReaderWithFlags
  refine Costs.bind (readLeU64_costs hS _ (Buf.cap_empty h)) (d := fun f => 32 + (2 * slack + bufCap) + (f.data.length : Int))
    (fun _ b h => ?_) (fun _ _ => by omega)
  refine Costs.bind (readLeU64_costs hS _ h) (d := fun f => 24 + (2 * slack + bufCap) + (f.data.length : Int))
    (fun _ b h => ?_) (fun _ _ => by omega)
  refine Costs.bind (readLeU64_costs hS _ h) (d := fun f => 16 + (2 * slack + bufCap) + (f.data.length : Int))
    (fun _ b h => ?_) (fun _ _ => by omega)
  refine Costs.bind (readLeU64_costs hS _ h) (d := fun f => 8 + (2 * slack + bufCap) + (f.data.length : Int))
    (fun _ b h => ?_) (fun _ _ => by omega)
  refine Costs.bind (readLeU64_costs hS _ h) (d := fun f => (2 * slack + bufCap) + (f.data.length : Int))
    (fun _ b h => ?_) (fun _ _ => by omega)
  refine Costs.bind (readBitset_costs hS env _ b h) (d := fun f => (f.data.length : Int))
    (fun _ b h => ?_) (fun _ _ => by omega)
  intro f b' he
  dsimp only at he
  cases hr : b.readToEnd S with
  | ok x =>
    rw [hr] at he
    obtain ⟨bs, b2⟩ := x
    cases he
    exact Buf.toEnd_costs hS b h _ _ hr
  | err e => rw [hr] at he; cases he
  | panic => rw [hr] at he; cases he

theorem v2_partial_costs (hS : Counted S inv used slack) (env : Env) (flags : Flags) (s : σ) (h : inv s) :
    Costs (Buf.Cap inv) (Buf.net used) (Buf.new s)
      (fun f => 48 + 2 * (2 * slack + bufCap) + (f.data.length : Int))
      (v2FromReaderWithFlags S env flags true s) := by
  unfold v2FromReaderWithFlags
  refine Costs.bind (readLeU64_costs hS _ (Buf.cap_empty h)) (d := fun f => 40 + 2 * (2 * slack + bufCap) + (f.data.length : Int))
    (fun _ b h => ?_) (fun _ _ => by omega)
  refine Costs.bind (readLeU64_costs hS _ h) (d := fun f => 32 + 2 * (2 * slack + bufCap) + (f.data.length : Int))
    (fun fpp b h => ?_) (fun _ _ => by omega)
  dsimp only
  split
  · intro f b' he; cases he
  refine Costs.bind (readLeU64_costs hS _ h) (d := fun f => 24 + 2 * (2 * slack + bufCap) + (f.data.length : Int))
    (fun _ b h => ?_) (fun _ _ => by omega)
  refine Costs.bind (readLeU64_costs hS _ h) (d := fun f => 16 + 2 * (2 * slack + bufCap) + (f.data.length : Int))
    (fun _ b h => ?_) (fun _ _ => by omega)
  refine Costs.bind (readLeU64_costs hS _ h) (d := fun f => 8 + 2 * (2 * slack + bufCap) + (f.data.length : Int))
    (fun _ b h => ?_) (fun _ _ => by omega)
  refine Costs.bind (readCache_costs hS env _ b h) (d := fun f => 8 + (2 * slack + bufCap) + (f.data.length : Int))
    (fun _ b h => ?_) (fun _ _ => by omega)
  refine Costs.bind (readLeU64_costs hS _ h) (d := fun f => (2 * slack + bufCap) + (f.data.length : Int))
    (fun _ b h => ?_) (fun _ _ => by omega)
  refine Costs.bind (readAllBuckets_costs hS env _ b h) (d := fun f => (f.data.length : Int))
    (fun _ b h => ?_) (fun _ _ => by omega)
  intro f b' he
  dsimp only at he
  cases hr : b.readToEnd S with
  | ok x =>
    rw [hr] at he
    obtain ⟨bs, b2⟩ := x
    cases he
    exact Buf.toEnd_costs hS b h _ _ hr
  | err e => rw [hr] at he; cases he
  | panic => rw [hr] at he; cases he

/-! ## At the end nothing is left in the buffers -/

/-- The state after an operation has a property. -/
def Post (P : σ → Prop) (x : Res (α × σ)) : Prop := ∀ a s, x = .ok (a, s) → P s

theorem Post.bind {β γ : Type} {P : σ → Prop} {x : Res β} {f : β → Res (γ × σ)}
    (h : ∀ a, Post P (f a)) : Post P (x >>= f) := by
  intro a s he
  cases x with
  | ok y => exact h y a s he
  | err e => cases he
  | panic => cases he

/-- Both buffers are empty. -/
def Drained (b : Buf (Buf σ)) : Prop := b.rest = [] ∧ b.inner.rest = []

theorem toEnd_drained {b : Buf (Buf σ)} {β : Type} {f : List U8 × Buf (Buf σ) → Res (β × Buf (Buf σ))}
    (hf : ∀ x, ∃ a, f x = .ok (a, x.2)) : Post Drained (b.readToEnd (buffered S) >>= f) := by
  intro a b' he
  unfold Buf.readToEnd at he
  cases h : (buffered S).readToEnd b.inner with
  | ok x =>
    rw [h] at he
    have h : b.inner.readToEnd S = .ok x := h
    unfold Buf.readToEnd at h
    cases h2 : S.readToEnd b.inner.inner with
    | ok y =>
      rw [h2] at h
      cases h
      simp only [Res.bind_ok] at he
      obtain ⟨c, hc⟩ := hf (b.rest ++ (b.inner.rest ++ y.1), ⟨⟨y.2, [], 0⟩, [], 0⟩)
      have he := hc.symm.trans he
      cases he
      exact ⟨rfl, rfl⟩
    | err e => rw [h2] at h; cases h
    | panic => rw [h2] at h; cases h
  | err e => rw [h] at he; cases he
  | panic => rw [h] at he; cases he

theorem v1_drained (env : Env) (flags : Flags) (p : Bool) (b : Buf σ) :
    Post Drained (v1FromReaderWithFlags (buffered S) env flags p b) := by
  unfold v1FromReaderWithFlags
  iterate 6 refine Post.bind fun ⟨_, _⟩ => ?_
  exact toEnd_drained fun x => ⟨_, rfl⟩

theorem v2_drained (env : Env) (flags : Flags) (p : Bool) (b : Buf σ) :
    Post Drained (v2FromReaderWithFlags (buffered S) env flags p b) := by
  unfold v2FromReaderWithFlags
  refine Post.bind fun _ => Post.bind fun _ => ?_
  dsimp only
  split
  · intro a s h; cases h
  iterate 6 refine Post.bind fun ⟨_, _⟩ => ?_
  exact toEnd_drained fun x => ⟨_, rfl⟩

/-- The user data of a filter. -/
theorem fromReaderAux_partial_costs (hS : Counted S inv used slack) (env : Env) (s : σ) (h : inv s)
    {f : Bloom} {b : Buf (Buf σ)} (he : fromReaderAux S env true s = .ok (f, b)) :
    used b.inner.inner ≤ used s + 56 + 8 * slack + 6 * bufCap + (f.data.length : Int) := by
  have hsl := hS.slack_nonneg
  unfold fromReaderAux at he
  dsimp only at he
  cases hf : readFlags S (Buf.new s) with
  | ok x =>
    obtain ⟨fl, b1⟩ := x
    rw [hf] at he
    simp only [Res.bind_ok] at he
    obtain ⟨h1, h2⟩ := readFlags_costs hS _ (Buf.cap_empty h) _ _ hf
    rw [show Buf.net used ⟨s, [], 0⟩ = used s from Buf.net_empty s] at h2
    split at he
    · cases hv : v1FromReaderWithFlags (buffered S) env fl true b1 with
      | ok y =>
        obtain ⟨g, b2⟩ := y
        rw [hv] at he
        cases he
        obtain ⟨d1, d2⟩ := v1_drained env fl true b1 _ _ hv
        obtain ⟨_, h4⟩ := v1_partial_costs (counted_buffered hS) env fl b1 h1 _ _ hv
        rw [show Buf.net (Buf.net used) (Buf.new b1) = Buf.net used b1 from Buf.net_empty b1] at h4
        have e : Buf.net (Buf.net used) b2 = used b2.inner.inner := by
          simp [Buf.net, d1, d2]
        rw [e] at h4
        dsimp only at h2 h4
        show used b2.inner.inner ≤ _ + ((g.data.length : ℕ) : Int)
        omega
      | err e => rw [hv] at he; cases he
      | panic => rw [hv] at he; cases he
    · split at he
      · cases hv : v2FromReaderWithFlags (buffered S) env fl true b1 with
        | ok y =>
          obtain ⟨g, b2⟩ := y
          rw [hv] at he
          cases he
          obtain ⟨d1, d2⟩ := v2_drained env fl true b1 _ _ hv
          obtain ⟨_, h4⟩ := v2_partial_costs (counted_buffered hS) env fl b1 h1 _ _ hv
          rw [show Buf.net (Buf.net used) (Buf.new b1) = Buf.net used b1 from Buf.net_empty b1] at h4
          have e : Buf.net (Buf.net used) b2 = used b2.inner.inner := by
            simp [Buf.net, d1, d2]
          rw [e] at h4
          dsimp only at h2 h4
          show used b2.inner.inner ≤ _ + ((g.data.length : ℕ) : Int)
          omega
        | err e => rw [hv] at he; cases he
        | panic => rw [hv] at he; cases he
      · cases he
  | err e => rw [hf] at he; cases he
  | panic => rw [hf] at he; cases he

end

end Poppy.Pieces
