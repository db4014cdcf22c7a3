import Verif.Lemmas.Partial
import Verif.LoadView

/-! Reading from a source that fails after some bytes is like reading from a source that ends
there, except that the end is an error. -/

namespace Poppy

/-- The outcome of an action on a source that fails, from that on a source that ends. -/
def Follows {α : Type} (bs : List U8) (k : ℕ) (x' x : Res (α × Reader)) : Prop :=
  match x' with
  | .ok (a, s) => ∃ p, s = ⟨bs.take k, p, none⟩ ∧ x = .ok (a, ⟨bs, p, some k⟩)
  | .err e => x = failing (.err e)
  | .panic => x = .panic

/-- The action only sees the bytes before the failing position. -/
def Local {α : Type} (m : ReadM α) : Prop :=
  ∀ (bs : List U8) (k p : ℕ), k ≤ bs.length →
    Follows bs k (m ⟨bs.take k, p, none⟩) (m ⟨bs, p, some k⟩)

theorem Local.readExact (n : ℕ) : Local (readExact n) := by
  intro bs k p hk
  unfold Poppy.readExact
  by_cases hn : n = 0
  · rw [if_pos hn, if_pos hn]
    exact ⟨p, rfl, rfl⟩
  · rw [if_neg hn, if_neg hn]
    simp only [Reader.failsBefore, Bool.false_eq_true, if_false, List.length_take]
    have hm : min k bs.length = k := by omega
    rw [hm]
    by_cases h : p + n ≤ k
    · rw [if_pos h, if_neg (by simp; omega), if_pos (by omega)]
      refine ⟨p + n, rfl, ?_⟩
      simp only [Res.ok.injEq, Prod.mk.injEq, and_true]
      rw [List.drop_take, List.take_take]
      congr 1
      omega
    · rw [if_neg h, if_pos (by simp; omega)]
      rfl

theorem Local.pure {α : Type} (a : α) : Local (fun r => Res.ok (a, r)) :=
  fun _ _ p _ => ⟨p, rfl, rfl⟩

/-- Sequencing. -/
theorem Local.seq {α β : Type} {m : ReadM α} {g : α → ReadM β} {n : ReadM β}
    (hn : n = fun r => m r >>= fun x => g x.1 x.2) (hm : Local m) (hg : ∀ a, Local (g a)) :
    Local n := by
  subst hn
  intro bs k p hk
  have h := hm bs k p hk
  show Follows bs k (m ⟨bs.take k, p, none⟩ >>= fun x => g x.1 x.2)
    (m ⟨bs, p, some k⟩ >>= fun x => g x.1 x.2)
  revert h
  rcases m ⟨bs.take k, p, none⟩ with ⟨a, s⟩ | e | _
  · rintro ⟨q, rfl, h2⟩
    rw [h2]
    exact hg a bs k q hk
  · intro h
    have h : m ⟨bs, p, some k⟩ = failing (.err e) := h
    show (m ⟨bs, p, some k⟩ >>= fun x => g x.1 x.2) = failing (.err e)
    rw [h]
    cases e with
    | ioError i => cases i <;> rfl
    | _ => rfl
  · intro h
    have h : m ⟨bs, p, some k⟩ = .panic := h
    show (m ⟨bs, p, some k⟩ >>= fun x => g x.1 x.2) = .panic
    rw [h]
    rfl

/-- A constant failure which is not the end of the file. -/
theorem Local.fail {α : Type} {e : Error} (h : e ≠ .ioError .unexpectedEof) :
    Local (fun _ => Res.err e : ReadM α) := by
  intro bs k p _
  show Res.err e = failing (.err e)
  cases e with
  | ioError i => cases i <;> first | rfl | exact absurd rfl h
  | _ => rfl

theorem Local.panic {α : Type} : Local (fun _ => Res.panic : ReadM α) := fun _ _ _ _ => rfl

theorem Local.seekRelative (off : U64) : Local (seekRelative off) := by
  intro bs k p _
  unfold Poppy.seekRelative
  simp only
  split
  · exact rfl
  · exact ⟨_, rfl, rfl⟩

theorem mulU64_ne_err (debug : Bool) (a b : U64) (e : Error) : mulU64 debug a b ≠ .err e := by
  unfold mulU64
  split <;> simp

theorem Local.readLeU64 : Local readLeU64 :=
  .seq (g := fun bs r => .ok (u64OfLe bs, r))
    (by funext r; unfold Poppy.readLeU64; cases Poppy.readExact 8 r <;> rfl) (.readExact 8)
    fun _ => .pure _

theorem Flags.fromBytes_ne_eof (bs : List U8) :
    Flags.fromBytes bs ≠ .err (.ioError .unexpectedEof) := by
  intro h
  unfold Flags.fromBytes at h
  split at h
  · unfold OptLevel.tryFrom at h
    split at h
    · cases h
    · rename_i he
      cases h
      revert he
      repeat' split
      all_goals simp
    · cases h
  · cases h

theorem Local.readFlags : Local readFlags := by
  refine .seq (g := fun bs r =>
    match Flags.fromBytes bs with
    | .ok f => .ok (f, r)
    | .err e => .err e
    | .panic => .panic)
    (by funext r; unfold Poppy.readFlags; cases Poppy.readExact 8 r <;> rfl) (.readExact 8)
    fun bs => ?_
  have := Flags.fromBytes_ne_eof bs
  revert this
  cases Flags.fromBytes bs with
  | ok f => intro _; exact .pure _
  | err e => intro h; exact .fail (by simpa using h)
  | panic => intro _; exact .panic

theorem Local.readWords (n : ℕ) : Local (V1.readWords n) := by
  induction n with
  | zero => exact .pure _
  | succ n ih =>
    refine .seq (g := fun w r => V1.readWords n r >>= fun x => .ok (w :: x.1, x.2)) ?_ .readLeU64
      fun w => .seq (g := fun ws r => .ok (w :: ws, r)) rfl ih fun ws => .pure _
    funext r
    simp only [V1.readWords]
    rcases Poppy.readLeU64 r with ⟨w, r⟩ | e | _
    · simp only [Res.bind_ok]
      cases V1.readWords n r <;> rfl
    · rfl
    · rfl

theorem Local.alloc {α : Type} {env : Env} {n s : ℕ} {m m' : ReadM α} (h : Local m)
    (hm : m' = fun r => if n * s ≤ env.allocLimit then m r else .panic) : Local m' := by
  subst hm
  split
  · exact h
  · exact .panic

theorem Local.skip {α : Type} {debug : Bool} {n s : U64} {a : α} {m : ReadM α}
    (hm : m = fun r => match mulU64 debug n s with
      | .ok off =>
        match Poppy.seekRelative off r with
        | .ok ((), r) => .ok (a, r)
        | .err e => .err e
        | .panic => .panic
      | .err e => .err e
      | .panic => .panic) : Local m := by
  have := mulU64_ne_err debug n s
  subst hm
  revert this
  rcases mulU64 debug n s with off | e | _
  · intro _
    refine .seq (g := fun _ r => .ok (a, r)) ?_ (.seekRelative off) fun _ => .pure _
    funext r
    simp only
    rcases Poppy.seekRelative off r with ⟨⟨⟩, r⟩ | e | _ <;> rfl
  · intro h; exact absurd rfl (h e)
  · intro _; exact .panic

theorem Local.readBitset (env : Env) (b : U64) (part : Bool) : Local (V1.readBitset env b part) := by
  cases part with
  | true => exact .skip (debug := env.debug) (n := u64SizeFor b) (s := 8#64) rfl
  | false =>
    refine .alloc (env := env) (n := (u64SizeFor b).toNat) (s := 8) (.readWords (u64SizeFor b).toNat) ?_
    funext r
    unfold V1.readBitset Env.alloc
    simp only [Bool.false_eq_true, if_false]
    by_cases hc : (u64SizeFor b).toNat * 8 ≤ env.allocLimit
    · simp only [hc, if_true]
    · simp only [hc, if_false]

theorem Local.readBuckets (n : ℕ) : Local (V2.readBuckets n) := by
  induction n with
  | zero => exact .pure _
  | succ n ih =>
    refine .seq (m := Poppy.readExact BUCKET_SIZE) (g := fun bs r =>
      V2.readBuckets n r >>= fun x =>
        if h : bs.length = BUCKET_SIZE then
          .ok ((⟨⟨bs.toArray, by simpa using h⟩⟩ : Bucket) :: x.1, x.2)
        else .panic) ?_ (.readExact _) fun bs => ?_
    · funext r
      simp only [V2.readBuckets]
      rcases Poppy.readExact BUCKET_SIZE r with ⟨w, r⟩ | e | _
      · simp only [Res.bind_ok]
        cases V2.readBuckets n r <;> rfl
      · rfl
      · rfl
    · refine .seq (m := V2.readBuckets n) (g := fun rest r =>
        if h : bs.length = BUCKET_SIZE then
          .ok ((⟨⟨bs.toArray, by simpa using h⟩⟩ : Bucket) :: rest, r)
        else .panic) rfl ih fun rest => ?_
      split
      · exact .pure _
      · exact .panic

theorem Local.readAllBuckets (env : Env) (n : U64) (part : Bool) :
    Local (V2.readAllBuckets env n part) := by
  cases part with
  | true => exact .skip (debug := env.debug) (n := n) (s := BitVec.ofNat 64 BUCKET_SIZE) rfl
  | false =>
    refine .alloc (env := env) (n := n.toNat) (s := BUCKET_SIZE) (.readBuckets n.toNat) ?_
    funext r
    unfold V2.readAllBuckets Env.alloc
    simp only [Bool.false_eq_true, if_false]
    by_cases hc : n.toNat * BUCKET_SIZE ≤ env.allocLimit
    · simp only [hc, if_true]
    · simp only [hc, if_false]

theorem Local.readCache (env : Env) (c : U64) (part : Bool) : Local (V2.readCache env c part) := by
  cases part with
  | true =>
    refine .seq (g := fun _ r => .ok (VecBitSet.withBitCapacity 0, r)) ?_
      (.seekRelative (byteCapFromBitCap c)) fun _ => .pure _
    funext r
    unfold V2.readCache
    simp only [if_true]
    rcases Poppy.seekRelative (byteCapFromBitCap c) r with ⟨⟨⟩, r⟩ | e | _ <;> rfl
  | false =>
    refine .alloc (env := env) (n := (byteCapFromBitCap c).toNat) (s := 1)
      (m := fun r => Poppy.readExact (VecBitSet.withBitCapacity c).byteLen r >>=
        fun x => .ok (⟨x.1⟩, x.2))
      (.seq (g := fun bs r => .ok (⟨bs⟩, r)) rfl (.readExact _) fun bs => .pure _) ?_
    funext r
    unfold V2.readCache Env.alloc
    simp only [Bool.false_eq_true, if_false]
    by_cases hc : (byteCapFromBitCap c).toNat * 1 ≤ env.allocLimit
    · simp only [hc, if_true]
      cases Poppy.readExact (VecBitSet.withBitCapacity c).byteLen r <;> rfl
    · simp only [hc, if_false]

/-- Reading a filter: actions, ending with all the rest. -/
def LocalEnd {α : Type} (m : Reader → Res α) : Prop :=
  ∀ (bs : List U8) (k p : ℕ), k ≤ bs.length →
    m ⟨bs, p, some k⟩ = failing (m ⟨bs.take k, p, none⟩)

theorem failing_map {α β : Type} (f : α → β) (r : Res α) :
    failing (r.map f) = (failing r).map f := by
  rcases r with a | e | _
  · rfl
  · cases e with
    | ioError i => cases i <;> rfl
    | _ => rfl
  · rfl

theorem LocalEnd.map {α β : Type} {m : Reader → Res α} (f : α → β) (h : LocalEnd m) :
    LocalEnd (fun r => (m r).map f) := by
  intro bs k p hk
  show (m _).map f = failing ((m _).map f)
  rw [h bs k p hk, failing_map]

theorem LocalEnd.bind {α β : Type} {m : ReadM α} {g : α × Reader → Res β} (hm : Local m)
    (hg : ∀ a, LocalEnd (fun r => g (a, r))) : LocalEnd (fun r => m r >>= g) := by
  intro bs k p hk
  have h := hm bs k p hk
  show (m ⟨bs, p, some k⟩ >>= g) = failing (m ⟨bs.take k, p, none⟩ >>= g)
  revert h
  rcases m ⟨bs.take k, p, none⟩ with ⟨a, s⟩ | e | _
  · rintro ⟨q, rfl, h2⟩
    rw [h2]
    exact hg a bs k q hk
  · intro h
    have h : m ⟨bs, p, some k⟩ = failing (.err e) := h
    rw [h]
    cases e with
    | ioError i => cases i <;> rfl
    | _ => rfl
  · intro h
    have h : m ⟨bs, p, some k⟩ = .panic := h
    rw [h]
    rfl

theorem LocalEnd.rest {β : Type} (g : List U8 × Reader → β) :
    LocalEnd (fun r => do let x ← readToEnd r; Res.ok (g x)) := by
  intro bs k p hk
  show (readToEnd _ >>= _) = _
  rw [readToEnd_faulty ⟨k, rfl, hk⟩]
  rfl

theorem LocalEnd.fail {α : Type} {e : Error} (h : e ≠ .ioError .unexpectedEof) :
    LocalEnd (fun _ => Res.err e : Reader → Res α) := by
  intro bs k p _
  show Res.err e = failing (.err e)
  cases e with
  | ioError i => cases i <;> first | rfl | exact absurd rfl h
  | _ => rfl

theorem LocalEnd.v1 (env : Env) (flags : Flags) (part : Bool) :
    LocalEnd (V1.fromReaderWithFlags env flags part) := by
  unfold V1.fromReaderWithFlags
  refine .bind .readLeU64 fun _ => .bind .readLeU64 fun _ => .bind .readLeU64 fun _ =>
    .bind .readLeU64 fun _ => .bind .readLeU64 fun _ => .bind (.readBitset _ _ _) fun _ => .rest _

theorem LocalEnd.v2 (env : Env) (flags : Flags) (part : Bool) :
    LocalEnd (V2.fromReaderWithFlags env flags part) := by
  unfold V2.fromReaderWithFlags
  refine .bind .readLeU64 fun _ => .bind .readLeU64 fun p => ?_
  dsimp only
  by_cases h : fppInRange p = true
  · simp only [h, Bool.not_true, Bool.false_eq_true, if_false]
    refine .bind .readLeU64 fun _ => ?_
    dsimp only
    refine .bind .readLeU64 fun _ => ?_
    dsimp only
    refine .bind .readLeU64 fun _ => ?_
    dsimp only
    refine .bind (.readCache _ _ _) fun _ => ?_
    dsimp only
    refine .bind .readLeU64 fun _ => ?_
    dsimp only
    refine .bind (.readAllBuckets _ _ _) fun _ => ?_
    dsimp only
    exact .rest _
  · simp only [h, Bool.not_false, if_true]
    exact .fail (by simp)

theorem LocalEnd.v1' (env : Env) (part : Bool) : LocalEnd (V1.fromReader' env part) := by
  unfold V1.fromReader'
  refine .bind .readFlags fun flags => ?_
  dsimp only
  by_cases h : flags.version ≠ 1#8
  · simp only [if_pos h]
    exact .fail (by simp)
  · simp only [if_neg h]
    exact .v1 env flags part

theorem LocalEnd.v2' (env : Env) (part : Bool) : LocalEnd (V2.fromReader' env part) := by
  unfold V2.fromReader'
  refine .bind .readFlags fun flags => ?_
  dsimp only
  by_cases h : flags.version ≠ 2#8
  · simp only [if_pos h]
    exact .fail (by simp)
  · simp only [if_neg h]
    exact .v2 env flags part

theorem LocalEnd.bloom (env : Env) (part : Bool) : LocalEnd (Bloom.fromReaderAux env part) := by
  have h : LocalEnd (fun r => readFlags r >>= fun x : Flags × Reader =>
      if x.1.version = 1#8 then (V1.fromReaderWithFlags env x.1 part x.2).map Bloom.v1
      else if x.1.version = 2#8 then (V2.fromReaderWithFlags env x.1 part x.2).map Bloom.v2
      else .err (.invalidVersion x.1.version)) := by
    refine .bind .readFlags fun flags => ?_
    dsimp only
    by_cases h1 : flags.version = 1#8
    · simp only [if_pos h1]
      exact LocalEnd.map Bloom.v1 (.v1 env flags part)
    · simp only [if_neg h1]
      by_cases h2 : flags.version = 2#8
      · simp only [if_pos h2]
        exact LocalEnd.map Bloom.v2 (.v2 env flags part)
      · simp only [if_neg h2]
        exact .fail (by simp)
  have he : (fun r => readFlags r >>= fun x : Flags × Reader =>
      if x.1.version = 1#8 then (V1.fromReaderWithFlags env x.1 part x.2).map Bloom.v1
      else if x.1.version = 2#8 then (V2.fromReaderWithFlags env x.1 part x.2).map Bloom.v2
      else .err (.invalidVersion x.1.version)) = Bloom.fromReaderAux env part := by
    funext r
    unfold Bloom.fromReaderAux
    cases readFlags r <;> rfl
  rw [← he]
  exact h

end Poppy
