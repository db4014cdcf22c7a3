import Verif.Lemmas.ReadCount

/-!
# Loading completely reads everything: lemmas
-/

namespace Poppy.Pieces

variable {σ α : Type}

/-- `P` holds while the reader is read, and `Q` when it was read to the end. -/
structure Keeps (S : Source σ) (P Q : σ → Prop) : Prop where
  data : ∀ n s bs s', P s → S.read n s = .data bs s' → P s'
  interrupted : ∀ n s s', P s → S.read n s = .interrupted s' → P s'
  toEnd : ∀ s bs s', P s → S.readToEnd s = .ok (bs, s') → Q s'

theorem Post.then {τ β γ : Type} {P : τ → Prop} {Q : σ → Prop} {x : Res (β × τ)}
    {f : β × τ → Res (γ × σ)}
    (hx : Post P x) (h : ∀ a s, P s → Post Q (f (a, s))) : Post Q (x >>= f) := by
  intro a s he
  cases x with
  | ok y => exact h y.1 y.2 (hx y.1 y.2 rfl) a s he
  | err e => cases he
  | panic => cases he

theorem Post.ok {P : σ → Prop} {a : α} {s : σ} (h : P s) : Post P (.ok (a, s)) := by
  intro a s he; cases he; exact h

theorem Post.err {P : σ → Prop} {e : Error} : Post P (.err e : Res (α × σ)) := by
  intro a s he; cases he

theorem Post.panic {P : σ → Prop} : Post P (.panic : Res (α × σ)) := by
  intro a s he; cases he

/-! ## The scripted reader -/

/-- So far every byte was given once: the position is the number of bytes given, after `start`. -/
def Script.Told (data : List U8) (start : Nat) (s : Script) : Prop :=
  s.reader.data = data ∧ s.reader.pos = start + s.given ∧ s.reader.pos ≤ data.length

theorem Script.read_told {data : List U8} {start n : Nat} {s : Script} (h : s.Told data start) :
    match s.read n with
    | .data bs s' => s'.Told data start ∧ (bs = [] → 0 < n → data.length ≤ s'.reader.pos)
    | .interrupted s' => s'.Told data start
    | .error _ => True := by
  have key : ∀ m (s : Script), s.Told data start → (0 < n → 0 < m) → match s.deliver m with
      | .data bs s' => s'.Told data start ∧ (bs = [] → 0 < n → data.length ≤ s'.reader.pos)
      | .interrupted s' => s'.Told data start
      | .error _ => True := by
    intro m s hs hm
    obtain ⟨⟨dat, pos, failAt⟩, es, g⟩ := s
    obtain ⟨rfl, hp, hl⟩ := hs
    have hp : pos = start + g := hp
    have hl : pos ≤ dat.length := hl
    unfold Script.deliver
    cases failAt with
    | none =>
      refine ⟨⟨rfl, ?_, ?_⟩, ?_⟩
      · dsimp only; omega
      · simp only [List.length_take, List.length_drop]; omega
      · intro h0 hn
        have := hm hn
        have := congrArg List.length h0
        simp only [List.length_take, List.length_drop, List.length_nil] at this ⊢
        omega
    | some k =>
      dsimp only
      by_cases h1 : k ≤ dat.length
      · rw [if_pos h1]
        by_cases h2 : k ≤ pos
        · rw [if_pos h2]
          trivial
        · rw [if_neg h2]
          refine ⟨⟨rfl, ?_, ?_⟩, ?_⟩
          · dsimp only; omega
          · simp only [List.length_take, List.length_drop]; omega
          · intro h0 hn
            have := hm hn
            have := congrArg List.length h0
            simp only [List.length_take, List.length_drop, List.length_nil] at this ⊢
            omega
      · rw [if_neg h1]
        refine ⟨⟨rfl, ?_, ?_⟩, ?_⟩
        · dsimp only; omega
        · simp only [List.length_take, List.length_drop]; omega
        · intro h0 hn
          have := hm hn
          have := congrArg List.length h0
          simp only [List.length_take, List.length_drop, List.length_nil] at this ⊢
          omega
  obtain ⟨r, es, g⟩ := s
  unfold Script.read
  cases es with
  | nil => exact key n ⟨r, [], g⟩ h (fun h => h)
  | cons e es =>
    cases e with
    | interrupt => exact h
    | atMost m => exact key (min n (m + 1)) ⟨r, es, g⟩ h (by omega)

theorem Script.toEnd_told {data : List U8} {start : Nat} (sizes : Nat → Nat) (fuel : Nat) :
    ∀ i (s : Script) bs s', s.Told data start → s.readToEndLoop sizes fuel i = .ok (bs, s') →
      s'.Told data start ∧ data.length ≤ s'.reader.pos := by
  induction fuel with
  | zero => intro i s bs s' _ h; cases h
  | succ fuel ih =>
    intro i s bs s' hs h
    unfold Script.readToEndLoop at h
    have hg := Script.read_told (n := sizes i + 1) hs
    cases hr : s.read (sizes i + 1) with
    | error k => rw [hr] at h; cases h
    | interrupted s2 =>
      rw [hr] at h hg
      exact ih _ _ _ _ hg h
    | data cs s2 =>
      rw [hr] at h hg
      obtain ⟨hg, he⟩ := hg
      cases cs with
      | nil => cases h; exact ⟨hg, he rfl (by omega)⟩
      | cons c t =>
        dsimp only at h
        cases hl : s2.readToEndLoop sizes fuel (i + 1) with
        | ok x =>
          obtain ⟨rest, s3⟩ := x
          rw [hl] at h
          have := ih _ _ _ _ hg hl
          cases h
          exact this
        | err e => rw [hl] at h; cases h
        | panic => rw [hl] at h; cases h

theorem keeps_scripted (sizes : Nat → Nat) (data : List U8) (start : Nat) :
    Keeps (scripted sizes) (Script.Told data start)
      (fun s => s.Told data start ∧ data.length ≤ s.reader.pos) where
  data := fun n s bs s' h hr => by
    have hg := Script.read_told (n := n) h
    rw [show s.read n = _ from hr] at hg
    exact hg.1
  interrupted := fun n s s' h hr => by
    have hg := Script.read_told (n := n) h
    rw [show s.read n = _ from hr] at hg
    exact hg
  toEnd := fun s bs s' h hr => Script.toEnd_told sizes _ _ _ _ _ h hr

/-! ## `BufReader` -/

section
variable {S : Source σ} {P Q : σ → Prop}

/-- A property of the reader after one call. -/
def ReadOut.After {τ : Type} (P : τ → Prop) : ReadOut τ → Prop
  | .data _ s => P s
  | .interrupted s => P s
  | .error _ => True

theorem Buf.fill_keeps (hS : Keeps S P Q) {b : Buf σ} (h : P b.inner) :
    (b.fill S).After fun b => P b.inner := by
  unfold Buf.fill
  split
  · cases he : S.read bufCap b.inner with
    | data cs s => exact hS.data _ _ _ _ h he
    | interrupted s => exact hS.interrupted _ _ _ h he
    | error k => trivial
  · exact h

theorem Buf.read_keeps (hS : Keeps S P Q) (n : Nat) {b : Buf σ} (h : P b.inner) :
    (b.read S n).After fun b => P b.inner := by
  unfold Buf.read
  split
  · cases he : S.read n b.inner with
    | data cs s => exact hS.data _ _ _ _ h he
    | interrupted s => exact hS.interrupted _ _ _ h he
    | error k => trivial
  · have := Buf.fill_keeps hS h
    cases he : b.fill S with
    | data cs s => rw [he] at this; exact this
    | interrupted s => rw [he] at this; exact this
    | error k => trivial

theorem keeps_buffered (hS : Keeps S P Q) :
    Keeps (buffered S) (fun b => P b.inner) (fun b => Q b.inner) where
  data := fun n b bs b' h hr => by
    have := Buf.read_keeps hS n h
    rw [show b.read S n = _ from hr] at this
    exact this
  interrupted := fun n b b' h hr => by
    have := Buf.read_keeps hS n h
    rw [show b.read S n = _ from hr] at this
    exact this
  toEnd := fun b bs b' h hr => by
    have hr : b.readToEnd S = .ok (bs, b') := hr
    unfold Buf.readToEnd at hr
    cases he : S.readToEnd b.inner with
    | ok x =>
      obtain ⟨cs, s⟩ := x
      rw [he] at hr
      cases hr
      exact hS.toEnd _ _ _ h he
    | err e => rw [he] at hr; cases hr
    | panic => rw [he] at hr; cases hr

theorem readExactLoop_keeps (hS : Keeps S P Q) (fuel : Nat) : ∀ (n : Nat) s, P s →
    Post P (readExactLoop S fuel n s) := by
  induction fuel with
  | zero =>
    intro n s hi
    cases n with
    | zero => exact Post.ok hi
    | succ n => exact Post.panic
  | succ fuel ih =>
    intro n s hi a s' h
    cases n with
    | zero => cases h; exact hi
    | succ n =>
      unfold readExactLoop at h
      cases hr : S.read (n + 1) s with
      | error k => rw [hr] at h; cases h
      | interrupted s2 =>
        rw [hr] at h
        exact ih _ _ (hS.interrupted _ _ _ hi hr) _ _ h
      | data bs s2 =>
        rw [hr] at h
        have h1 := hS.data _ _ _ _ hi hr
        cases bs with
        | nil => cases h
        | cons c t =>
          dsimp only at h
          generalize c :: t = bs at *
          cases hl : readExactLoop S fuel (n + 1 - bs.length) s2 with
          | ok x =>
            obtain ⟨rest, s3⟩ := x
            rw [hl] at h
            have := ih _ _ h1 _ _ hl
            cases h
            exact this
          | err e => rw [hl] at h; cases h
          | panic => rw [hl] at h; cases h

theorem Buf.readExact_keeps (hS : Keeps S P Q) (n : Nat) (b : Buf σ) (h : P b.inner) :
    Post (fun b => P b.inner) (b.readExact S n) := by
  unfold Buf.readExact
  split
  · exact Post.ok h
  · exact readExactLoop_keeps (keeps_buffered hS) _ n b h

theorem readLeU64_keeps (hS : Keeps S P Q) (b : Buf σ) (h : P b.inner) :
    Post (fun b => P b.inner) (readLeU64 S b) := by
  intro a b' he
  unfold readLeU64 at he
  cases hr : b.readExact S 8 with
  | ok x =>
    rw [hr] at he
    obtain ⟨bs, b2⟩ := x
    cases he
    exact Buf.readExact_keeps hS 8 b h _ _ hr
  | err e => rw [hr] at he; cases he
  | panic => rw [hr] at he; cases he

theorem readFlags_keeps (hS : Keeps S P Q) (b : Buf σ) (h : P b.inner) :
    Post (fun b => P b.inner) (readFlags S b) := by
  unfold readFlags
  refine Post.then (Buf.readExact_keeps hS 8 b h) fun bs b' h' => ?_
  exact Post.bind fun _ => Post.ok h'

theorem readWords_keeps (hS : Keeps S P Q) (n : Nat) : ∀ (b : Buf σ), P b.inner →
    Post (fun b => P b.inner) (readWords S n b) := by
  induction n with
  | zero => intro b h; exact Post.ok h
  | succ n ih =>
    intro b h
    unfold readWords
    refine Post.then (readLeU64_keeps hS b h) fun _ b h => ?_
    exact Post.then (ih b h) fun _ b h => Post.ok h

theorem readBuckets_keeps (hS : Keeps S P Q) (n : Nat) : ∀ (b : Buf σ), P b.inner →
    Post (fun b => P b.inner) (readBuckets S n b) := by
  induction n with
  | zero => intro b h; exact Post.ok h
  | succ n ih =>
    intro b h
    unfold readBuckets
    refine Post.then (Buf.readExact_keeps hS _ b h) fun _ b h => ?_
    refine Post.then (ih b h) fun _ b h => ?_
    dsimp only
    split
    · exact Post.ok h
    · exact Post.panic

theorem readBitset_keeps (hS : Keeps S P Q) (env : Env) (m : U64) (b : Buf σ) (h : P b.inner) :
    Post (fun b => P b.inner) (readBitset S env m false b) := by
  unfold readBitset
  simp only [Bool.false_eq_true, if_false]
  exact Post.bind fun _ => readWords_keeps hS _ b h

theorem readCache_keeps (hS : Keeps S P Q) (env : Env) (m : U64) (b : Buf σ) (h : P b.inner) :
    Post (fun b => P b.inner) (readCache S env m false b) := by
  unfold readCache
  simp only [Bool.false_eq_true, if_false]
  refine Post.bind fun _ => ?_
  exact Post.then (Buf.readExact_keeps hS _ b h) fun _ b h => Post.ok h

theorem readAllBuckets_keeps (hS : Keeps S P Q) (env : Env) (n : U64) (b : Buf σ) (h : P b.inner) :
    Post (fun b => P b.inner) (readAllBuckets S env n false b) := by
  unfold readAllBuckets
  simp only [Bool.false_eq_true, if_false]
  exact Post.bind fun _ => readBuckets_keeps hS _ b h

theorem v1_full (hS : Keeps S P Q) (env : Env) (flags : Flags) (s : σ) (h : P s) :
    Post (fun b => Q b.inner) (v1FromReaderWithFlags S env flags false s) := by
  unfold v1FromReaderWithFlags
  refine Post.then (readLeU64_keeps hS (Buf.new s) h) fun _ b h => ?_
  iterate 4 refine Post.then (readLeU64_keeps hS _ h) fun _ b h => ?_
  refine Post.then (readBitset_keeps hS env _ _ h) fun _ b h => ?_
  exact Post.then (fun bs b' he => (keeps_buffered hS).toEnd b bs b' h he) fun _ b h => Post.ok h

theorem v2_full (hS : Keeps S P Q) (env : Env) (flags : Flags) (s : σ) (h : P s) :
    Post (fun b => Q b.inner) (v2FromReaderWithFlags S env flags false s) := by
  unfold v2FromReaderWithFlags
  refine Post.then (readLeU64_keeps hS (Buf.new s) h) fun _ b h => ?_
  refine Post.then (readLeU64_keeps hS _ h) fun _ b h => ?_
  dsimp only
  split
  · exact Post.err
  iterate 3 refine Post.then (readLeU64_keeps hS _ h) fun _ b h => ?_
  refine Post.then (readCache_keeps hS env _ _ h) fun _ b h => ?_
  refine Post.then (readLeU64_keeps hS _ h) fun _ b h => ?_
  refine Post.then (readAllBuckets_keeps hS env _ _ h) fun _ b h => ?_
  exact Post.then (fun bs b' he => (keeps_buffered hS).toEnd b bs b' h he) fun _ b h => Post.ok h

theorem fromReaderAux_full (hS : Keeps S P Q) (env : Env) (s : σ) (h : P s) :
    Post (fun b => Q b.inner.inner) (fromReaderAux S env false s) := by
  unfold fromReaderAux
  refine Post.then (readFlags_keeps hS (Buf.new s) h) fun fl b h => ?_
  dsimp only
  split
  · exact Post.then (v1_full (keeps_buffered hS) env fl b h) fun _ b h => Post.ok h
  · split
    · exact Post.then (v2_full (keeps_buffered hS) env fl b h) fun _ b h => Post.ok h
    · exact Post.err

end

end Poppy.Pieces
