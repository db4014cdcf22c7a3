import Verif.Model.Readers

/-!
# Readers that deliver their data in pieces: lemmas
-/

namespace Poppy.Pieces

variable {σ α : Type}

/-- The result of one `read` of at most `n` bytes agrees with what the reader `view s` holds. -/
def Good (S : Source σ) (view : σ → Reader) (inv : σ → Prop) (n : Nat) (s : σ) : ReadOut σ → Prop
  | .interrupted s' => inv s' ∧ view s' = view s ∧ S.interrupts s' < S.interrupts s
  | .error k => k = .other ∧ (view s).failsBefore ((view s).pos + 1) = true
  | .data bs s' => inv s' ∧ bs.length ≤ n ∧
      (view s).failsBefore ((view s).pos + max 1 bs.length) = false ∧
      bs = ((view s).data.drop (view s).pos).take bs.length ∧
      (bs = [] → (view s).data.length ≤ (view s).pos) ∧
      view s' = { view s with pos := (view s).pos + bs.length } ∧
      S.interrupts s' ≤ S.interrupts s

/-- The result of an operation is that of the operation on `Reader`. -/
def Sim (view : σ → Reader) (inv : σ → Prop) (x : Res (α × σ)) (y : Res (α × Reader)) : Prop :=
  match x with
  | .ok (a, s) => inv s ∧ y = .ok (a, view s)
  | .err e => y = .err e
  | .panic => y = .panic

/-- The result of a relative seek: the new position, which may not be before the start. -/
def SeekOk (view : σ → Reader) (inv : σ → Prop) (d : Int) (s : σ) : Res σ → Prop
  | .ok s' => inv s' ∧ 0 ≤ ((view s).pos : Int) + d ∧
      view s' = { view s with pos := (((view s).pos : Int) + d).toNat }
  | .err e => e = .ioError .invalidInput ∧ ((view s).pos : Int) + d < 0
  | .panic => False

/-- A source whose methods do what `Read` and `Seek` promise, where `view` says which data it has. -/
structure Lawful (S : Source σ) (view : σ → Reader) (inv : σ → Prop) : Prop where
  read : ∀ n s, 0 < n → inv s → Good S view inv n s (S.read n s)
  toEnd : ∀ s, inv s → Sim view inv (S.readToEnd s) (Poppy.readToEnd (view s))
  seek : ∀ d s, inv s → SeekOk view inv d s (S.seek d s)

theorem failsBefore_mono {r : Reader} {a b : Nat} (h : a ≤ b) (hf : r.failsBefore a = true) :
    r.failsBefore b = true := by
  unfold Reader.failsBefore at *
  split at hf
  · simp at hf
  · simp only [Bool.and_eq_true, decide_eq_true_eq] at hf ⊢
    omega

theorem failsBefore_anti {r : Reader} {a b : Nat} (h : a ≤ b) (hf : r.failsBefore b = false) :
    r.failsBefore a = false := by
  by_contra hc
  rw [Bool.not_eq_false] at hc
  rw [failsBefore_mono h hc] at hf
  simp at hf

theorem failsBefore_pos {r : Reader} (p n : Nat) :
    ({ r with pos := p } : Reader).failsBefore n = r.failsBefore n := rfl

/-- Not failing beyond the end of the data means not failing. -/
theorem failsBefore_end {r : Reader} {a b : Nat} (h : r.data.length < a) (hf : r.failsBefore a = false) :
    r.failsBefore b = false := by
  unfold Reader.failsBefore at *
  split at hf
  · rfl
  · simp only [Bool.and_eq_false_iff, decide_eq_false_iff_not] at hf ⊢
    omega

/-- Reading in two steps. -/
theorem readExact_split {r : Reader} {n m : Nat} (hm : 0 < m) (hmn : m ≤ n)
    (hf : r.failsBefore (r.pos + m) = false) (hl : r.pos + m ≤ r.data.length) :
    readExact n r = match readExact (n - m) { r with pos := r.pos + m } with
      | .ok (rest, r') => .ok ((r.data.drop r.pos).take m ++ rest, r')
      | .err e => .err e
      | .panic => .panic := by
  have hn : n ≠ 0 := by omega
  by_cases h0 : n - m = 0
  · have : n = m := by omega
    subst this
    simp [readExact, hn, hf, hl]
  · unfold readExact
    rw [if_neg hn, if_neg h0]
    have e : r.pos + m + (n - m) = r.pos + n := by omega
    simp only [e, failsBefore_pos]
    by_cases h1 : r.failsBefore (r.pos + n) = true
    · rw [if_pos h1, if_pos h1]
    · rw [if_neg h1, if_neg h1]
      by_cases h2 : r.pos + n ≤ r.data.length
      · rw [if_pos h2, if_pos h2]
        simp only [Res.ok.injEq, Prod.mk.injEq, and_true]
        have e2 : n = m + (n - m) := by omega
        conv_lhs => rw [e2, List.take_add, List.drop_drop]
      · rw [if_neg h2, if_neg h2]

theorem piece_length {r : Reader} {bs : List U8} (h : bs = (r.data.drop r.pos).take bs.length)
    (hb : bs ≠ []) : r.pos + bs.length ≤ r.data.length := by
  have := congrArg List.length h
  simp only [List.length_take, List.length_drop] at this
  have := List.length_pos_iff.2 hb
  omega

/-- `default_read_exact` on a lawful source. -/
theorem readExactLoop_sim {S : Source σ} {view : σ → Reader} {inv : σ → Prop} (hS : Lawful S view inv)
    (fuel : Nat) : ∀ n s, inv s → n + S.interrupts s ≤ fuel →
      Sim view inv (readExactLoop S fuel n s) (Poppy.readExact n (view s)) := by
  induction fuel with
  | zero =>
    intro n s hi hn
    have : n = 0 := by omega
    subst this
    exact ⟨hi, by simp [Poppy.readExact]⟩
  | succ fuel ih =>
    intro n s hi hn
    cases n with
    | zero => exact ⟨hi, by simp [Poppy.readExact]⟩
    | succ n =>
      have hg := hS.read (n + 1) s (by omega) hi
      unfold readExactLoop
      cases hr : S.read (n + 1) s with
      | error k =>
        rw [hr] at hg
        obtain ⟨rfl, hf⟩ := hg
        show Poppy.readExact (n + 1) (view s) = _
        unfold Poppy.readExact
        rw [if_neg (by omega), if_pos (failsBefore_mono (by omega) hf)]
      | interrupted s' =>
        rw [hr] at hg
        obtain ⟨hi', hv, hlt⟩ := hg
        have := ih (n + 1) s' hi' (by omega)
        rwa [hv] at this
      | data bs s' =>
        rw [hr] at hg
        obtain ⟨hi', hle, hf, hbs, hend, hv, hint⟩ := hg
        cases bs with
        | nil =>
          have hend := hend rfl
          show Poppy.readExact (n + 1) (view s) = _
          unfold Poppy.readExact
          rw [if_neg (by omega), failsBefore_end (a := (view s).pos + max 1 ([] : List U8).length)
            (by simp; omega) hf, if_neg (by simp), if_neg (by omega)]
        | cons c t =>
          have hl := piece_length hbs (by simp)
          have hpos : 0 < (c :: t).length := by simp
          have := ih (n + 1 - (c :: t).length) s' hi' (by omega)
          rw [hv] at this
          rw [readExact_split hpos hle (failsBefore_anti (by omega) hf) hl, ← hbs]
          dsimp only
          generalize c :: t = bs at *
          revert this
          cases readExactLoop S fuel (n + 1 - bs.length) s' with
          | ok x =>
            obtain ⟨rest, s2⟩ := x
            rintro ⟨h1, h2⟩
            rw [h2]
            exact ⟨h1, rfl⟩
          | err e =>
            intro h
            change readExact _ _ = _ at h
            rw [h]
            rfl
          | panic =>
            intro h
            change readExact _ _ = _ at h
            rw [h]
            rfl

/-! ## `BufReader` -/

/-- The data of a `BufReader`: the inner reader is ahead. -/
def Buf.view (view : σ → Reader) (b : Buf σ) : Reader :=
  { view b.inner with pos := (view b.inner).pos - b.rest.length }

/-- The buffer holds the data before the position of the inner reader. -/
def Buf.Inv (view : σ → Reader) (inv : σ → Prop) (b : Buf σ) : Prop :=
  inv b.inner ∧ b.pos ≤ b.buf.length ∧
    (b.buf ≠ [] → b.buf.length ≤ (view b.inner).pos ∧ (view b.inner).pos ≤ (view b.inner).data.length ∧
      b.buf = ((view b.inner).data.drop ((view b.inner).pos - b.buf.length)).take b.buf.length ∧
      (view b.inner).failsBefore (view b.inner).pos = false)

theorem Buf.inv_empty {view : σ → Reader} {inv : σ → Prop} {s : σ} (h : inv s) :
    Buf.Inv view inv ⟨s, [], 0⟩ := ⟨h, by simp, by simp⟩

theorem Buf.view_empty {view : σ → Reader} (s : σ) : Buf.view view ⟨s, [], 0⟩ = view s := by
  simp [Buf.view, Buf.rest]

theorem Buf.rest_eq {view : σ → Reader} {inv : σ → Prop} {b : Buf σ} (h : Buf.Inv view inv b) :
    b.rest = ((b.view view).data.drop (b.view view).pos).take b.rest.length := by
  obtain ⟨_, hp, hb⟩ := h
  by_cases h0 : b.buf = []
  · simp [Buf.rest, h0]
  · obtain ⟨h1, h2, h3, _⟩ := hb h0
    have hl : b.rest.length = b.buf.length - b.pos := by simp [Buf.rest]
    have e : (view b.inner).pos - b.buf.length + b.pos = (view b.inner).pos - b.rest.length := by omega
    show b.rest = (((view b.inner).data.drop ((view b.inner).pos - b.rest.length)).take b.rest.length)
    conv_lhs => unfold Buf.rest; rw [h3]
    rw [List.drop_take, List.drop_drop, e, hl]

theorem Buf.fill_good {S : Source σ} {view : σ → Reader} {inv : σ → Prop} (hS : Lawful S view inv)
    {b : Buf σ} (h : Buf.Inv view inv b) :
    Good (buffered S) (Buf.view view) (Buf.Inv view inv) (max bufCap b.rest.length) b (match b.fill S with
      | .data bs b => .data bs { b with pos := b.pos + bs.length }
      | x => x) ∧
    ∀ bs b', b.fill S = .data bs b' → bs = b'.rest ∧ Buf.Inv view inv b' ∧ b'.view view = b.view view ∧
      S.interrupts b'.inner ≤ S.interrupts b.inner ∧
      (b'.rest = [] → (b.view view).data.length ≤ (b.view view).pos) ∧
      (b.view view).failsBefore ((b.view view).pos + max 1 bs.length) = false := by
  have hsplit : b.buf.length ≤ b.pos ∨ b.pos < b.buf.length := by omega
  rcases hsplit with hc | hc
  · have hr0 : b.rest = [] := by simp [Buf.rest, hc]
    have hv : b.view view = view b.inner := by simp [Buf.view, hr0]
    have hg := hS.read bufCap b.inner (by decide) h.1
    unfold Buf.fill
    rw [if_pos hc]
    cases hr : S.read bufCap b.inner with
    | error k =>
      rw [hr] at hg
      refine ⟨⟨hg.1, by rw [hv]; exact hg.2⟩, by simp⟩
    | interrupted s' =>
      rw [hr] at hg
      obtain ⟨hi', hv', hlt⟩ := hg
      exact ⟨⟨Buf.inv_empty hi', by rw [Buf.view_empty, hv, hv'], hlt⟩, by simp⟩
    | data bs s' =>
      rw [hr] at hg
      obtain ⟨hi', hle, hf, hbs, hend, hv', hint⟩ := hg
      have hinv : ∀ p, p ≤ bs.length → Buf.Inv view inv ⟨s', bs, p⟩ := by
        intro p hp
        refine ⟨hi', hp, fun hne => ?_⟩
        have hl := piece_length hbs hne
        have h1 := List.length_pos_iff.2 hne
        simp only [hv']
        refine ⟨by omega, hl, ?_, ?_⟩
        · rw [Nat.add_sub_cancel]; exact hbs
        · rw [failsBefore_pos]
          exact failsBefore_anti (by omega) hf
      have hview : ∀ p, p ≤ bs.length → Buf.view view ⟨s', bs, p⟩ =
          { view b.inner with pos := (view b.inner).pos + p } := by
        intro p hp
        unfold Buf.view
        simp only [hv', Buf.rest, List.length_drop]
        congr 1
        omega
      constructor
      · dsimp only
        refine ⟨hinv _ (by simp), by omega, by rw [hv]; exact hf, by rw [hv]; exact hbs,
          fun e => by rw [hv]; exact hend e, ?_, hint⟩
        rw [hv, hview _ (by simp)]
        simp
      · intro bs' b' he
        simp only [ReadOut.data.injEq] at he
        obtain ⟨rfl, rfl⟩ := he
        refine ⟨by simp [Buf.rest], hinv 0 (by omega), ?_, hint, ?_, ?_⟩
        · rw [hview 0 (by omega), hv, Nat.add_zero]
        · intro e
          rw [hv]
          exact hend (by simpa [Buf.rest] using e)
        · rw [hv]; exact hf
  · have hne : b.buf ≠ [] := by rintro e; rw [e] at hc; simp at hc
    have hl : b.rest.length = b.buf.length - b.pos := by simp [Buf.rest]
    obtain ⟨h1, h2, h3, h4⟩ := h.2.2 hne
    have hpos : (b.view view).pos = (view b.inner).pos - b.rest.length := rfl
    have hfail : (b.view view).failsBefore ((b.view view).pos + max 1 b.rest.length) = false := by
      show (view b.inner).failsBefore _ = false
      rw [hpos]
      exact failsBefore_anti (by omega) h4
    have hrne : b.rest ≠ [] := by
      intro e
      rw [e] at hl
      simp at hl
      omega
    unfold Buf.fill
    rw [if_neg (by omega)]
    constructor
    · dsimp only
      refine ⟨⟨h.1, by simp only; omega, h.2.2⟩, by omega, hfail, Buf.rest_eq h,
        fun e => absurd e hrne, ?_, le_refl _⟩
      rw [hl]
      simp only [Buf.view, Buf.rest, List.length_drop, Reader.mk.injEq, true_and, and_true]
      omega
    · intro bs' b' he
      simp only [ReadOut.data.injEq] at he
      obtain ⟨rfl, rfl⟩ := he
      exact ⟨rfl, h, rfl, le_refl _, fun e => absurd e hrne, hfail⟩

/-- Consuming part of the buffer. -/
theorem Buf.consume {view : σ → Reader} {inv : σ → Prop} {b : Buf σ} (h : Buf.Inv view inv b) {n : Nat}
    (hn : n ≤ b.rest.length) : Buf.Inv view inv { b with pos := b.pos + n } ∧
      Buf.view view { b with pos := b.pos + n } = { b.view view with pos := (b.view view).pos + n } := by
  have hl : b.rest.length = b.buf.length - b.pos := by simp [Buf.rest]
  have hp := h.2.1
  refine ⟨⟨h.1, by simp only; omega, h.2.2⟩, ?_⟩
  by_cases h0 : b.buf = []
  · have e : n = 0 := by rw [h0, List.length_nil] at hl; omega
    subst e
    rfl
  · obtain ⟨h1, _⟩ := h.2.2 h0
    rw [hl] at hn
    simp only [Buf.view, Buf.rest, List.length_drop, Reader.mk.injEq, true_and, and_true]
    omega

theorem Buf.read_good {S : Source σ} {view : σ → Reader} {inv : σ → Prop} (hS : Lawful S view inv)
    (n : Nat) (b : Buf σ) (hn : 0 < n) (h : Buf.Inv view inv b) :
    Good (buffered S) (Buf.view view) (Buf.Inv view inv) n b (b.read S n) := by
  unfold Buf.read
  split
  · rename_i hc
    have hr0 : b.rest = [] := by simp [Buf.rest, hc.1]
    have hv : b.view view = view b.inner := by simp [Buf.view, hr0]
    have hg := hS.read n b.inner hn h.1
    cases hr : S.read n b.inner with
    | error k =>
      rw [hr] at hg
      exact ⟨hg.1, by rw [hv]; exact hg.2⟩
    | interrupted s' =>
      rw [hr] at hg
      obtain ⟨hi', hv', hlt⟩ := hg
      exact ⟨Buf.inv_empty hi', by rw [Buf.view_empty, hv, hv'], hlt⟩
    | data bs s' =>
      rw [hr] at hg
      obtain ⟨hi', hle, hf, hbs, hend, hv', hint⟩ := hg
      exact ⟨Buf.inv_empty hi', hle, by rw [hv]; exact hf, by rw [hv]; exact hbs,
        fun e => by rw [hv]; exact hend e, by rw [Buf.view_empty, hv, hv'], hint⟩
  · obtain ⟨hg, hd⟩ := Buf.fill_good hS h
    cases hr : b.fill S with
    | error k => rw [hr] at hg; exact hg
    | interrupted s' => rw [hr] at hg; exact hg
    | data bs b' =>
      obtain ⟨he, hi', hv', hint, hend, hf⟩ := hd bs b' hr
      subst he
      dsimp only
      have hm : min n b'.rest.length ≤ b'.rest.length := by omega
      obtain ⟨c1, c2⟩ := Buf.consume hi' hm
      have hlen : (b'.rest.take n).length = min n b'.rest.length := by simp
      have hre := Buf.rest_eq hi'
      rw [hv'] at hre c2
      refine ⟨c1, by rw [hlen]; omega, ?_, ?_, ?_, by rw [hlen]; exact c2, hint⟩
      · exact failsBefore_anti (by rw [hlen]; omega) hf
      · rw [hlen]
        conv_lhs => rw [hre, List.take_take]
      · intro e
        apply hend
        have := congrArg List.length e
        rw [hlen] at this
        simp at this
        rcases this with h | h
        · omega
        · exact h

theorem Buf.toEnd_sim {S : Source σ} {view : σ → Reader} {inv : σ → Prop} (hS : Lawful S view inv)
    (b : Buf σ) (h : Buf.Inv view inv b) :
    Sim (Buf.view view) (Buf.Inv view inv) (b.readToEnd S) (Poppy.readToEnd (b.view view)) := by
  have hs := hS.toEnd b.inner h.1
  have hre := Buf.rest_eq h
  have hl : b.rest.length = b.buf.length - b.pos := by simp [Buf.rest]
  have key : (b.rest = [] ∧ b.view view = view b.inner) ∨
      (b.rest.length ≤ (view b.inner).pos ∧ (view b.inner).pos ≤ (view b.inner).data.length) := by
    by_cases h0 : b.buf = []
    · left
      have : b.rest = [] := by simp [Buf.rest, h0]
      exact ⟨this, by simp [Buf.view, this]⟩
    · right
      obtain ⟨h1, h2, _⟩ := h.2.2 h0
      omega
  have hfe : (b.view view).failsBefore (max (b.view view).pos (b.view view).data.length + 1) =
      (view b.inner).failsBefore (max (view b.inner).pos (view b.inner).data.length + 1) := by
    rcases key with ⟨_, hv⟩ | ⟨h1, h2⟩
    · rw [hv]
    · show (view b.inner).failsBefore
        (max ((view b.inner).pos - b.rest.length) (view b.inner).data.length + 1) = _
      congr 2
      omega
  unfold Buf.readToEnd
  unfold Poppy.readToEnd at hs ⊢
  rw [hfe]
  revert hs
  cases S.readToEnd b.inner with
  | err e =>
    intro hs
    change _ = Res.err e at hs
    show _ = Res.err e
    split at hs
    · rename_i hf; rw [if_pos hf]; injection hs with hs; rw [hs]
    · simp at hs
  | panic =>
    intro hs
    change _ = Res.panic at hs
    split at hs <;> simp at hs
  | ok x =>
    obtain ⟨bs, s'⟩ := x
    rintro ⟨hi', hs⟩
    split at hs
    · simp at hs
    · rename_i hf
      rw [if_neg hf]
      simp only [Res.ok.injEq, Prod.mk.injEq] at hs
      obtain ⟨e1, e2⟩ := hs
      refine ⟨Buf.inv_empty hi', ?_⟩
      rw [Buf.view_empty, ← e1, ← e2]
      simp only [Res.ok.injEq, Prod.mk.injEq]
      rcases key with ⟨hr, hv⟩ | ⟨h1, h2⟩
      · rw [hr, hv]; simp
      · constructor
        · have e3 : (view b.inner).pos = (b.view view).pos + b.rest.length := by
            show _ = (view b.inner).pos - b.rest.length + _
            omega
          conv_rhs => rw [e3, ← List.drop_drop]
          conv_rhs => lhs; rw [hre]
          exact (List.take_append_drop _ _).symm
        · unfold Buf.view
          simp only [Reader.mk.injEq, true_and, and_true]
          omega

theorem Buf.seek_ok {S : Source σ} {view : σ → Reader} {inv : σ → Prop} (hS : Lawful S view inv)
    (d : Int) (b : Buf σ) (h : Buf.Inv view inv b) :
    SeekOk (Buf.view view) (Buf.Inv view inv) d b (b.seek S d) := by
  have hl : b.rest.length = b.buf.length - b.pos := by simp [Buf.rest]
  have hp : ((b.view view).pos : Int) = (view b.inner).pos - b.rest.length := by
    show (((view b.inner).pos - b.rest.length : ℕ) : Int) = _
    by_cases h0 : b.buf = []
    · simp [Buf.rest, h0]
    · obtain ⟨h1, _⟩ := h.2.2 h0
      omega
  unfold Buf.seek
  dsimp only
  split
  · have hs := hS.seek (d - b.rest.length) b.inner h.1
    revert hs
    cases S.seek (d - b.rest.length) b.inner with
    | ok s' =>
      rintro ⟨h1, h2, h3⟩
      refine ⟨Buf.inv_empty h1, by omega, ?_⟩
      rw [Buf.view_empty, h3, hp]
      unfold Buf.view
      simp only [Reader.mk.injEq, true_and, and_true]
      omega
    | err e => rintro ⟨h1, h2⟩; exact ⟨h1, by omega⟩
    | panic => exact id
  · have hs := hS.seek (-b.rest.length) b.inner h.1
    revert hs
    cases S.seek (-b.rest.length) b.inner with
    | ok s' =>
      rintro ⟨h1, h2, h3⟩
      have hs := hS.seek d s' h1
      revert hs
      dsimp only
      cases S.seek d s' with
      | ok s2 =>
        rintro ⟨h4, h5, h6⟩
        rw [h3] at h5 h6
        simp only at h5 h6
        refine ⟨Buf.inv_empty h4, by omega, ?_⟩
        rw [Buf.view_empty, h6, hp]
        unfold Buf.view
        simp only [Reader.mk.injEq, true_and, and_true]
        omega
      | err e =>
        rintro ⟨h4, h5⟩
        rw [h3] at h5
        simp only at h5
        exact ⟨h4, by omega⟩
      | panic => exact id
    | err e =>
      rintro ⟨h1, h2⟩
      exfalso
      have : 0 ≤ ((b.view view).pos : Int) := by omega
      omega
    | panic => exact id

/-- A `BufReader` around a lawful reader is one. -/
theorem lawful_buffered {S : Source σ} {view : σ → Reader} {inv : σ → Prop} (hS : Lawful S view inv) :
    Lawful (buffered S) (Buf.view view) (Buf.Inv view inv) where
  read := fun n b hn h => Buf.read_good hS n b hn h
  toEnd := fun b h => Buf.toEnd_sim hS b h
  seek := fun d b h => Buf.seek_ok hS d b h

theorem Buf.readExact_sim {S : Source σ} {view : σ → Reader} {inv : σ → Prop} (hS : Lawful S view inv)
    (n : Nat) (b : Buf σ) (h : Buf.Inv view inv b) :
    Sim (Buf.view view) (Buf.Inv view inv) (b.readExact S n) (Poppy.readExact n (b.view view)) := by
  unfold Buf.readExact
  split
  · rename_i hn
    obtain ⟨c1, c2⟩ := Buf.consume h hn
    refine ⟨c1, ?_⟩
    rw [c2]
    have hre := Buf.rest_eq h
    by_cases h0 : n = 0
    · subst h0; simp [Poppy.readExact]
    · have hl : b.rest.length = b.buf.length - b.pos := by simp [Buf.rest]
      have hne : b.buf ≠ [] := by rintro e; rw [e, List.length_nil] at hl; omega
      obtain ⟨h1, h2, _, h4⟩ := h.2.2 hne
      have hp : (b.view view).pos = (view b.inner).pos - b.rest.length := rfl
      unfold Poppy.readExact
      rw [if_neg h0, show (b.view view).failsBefore ((b.view view).pos + n) = false from
        failsBefore_anti (r := view b.inner) (by omega) h4, if_neg (by simp), if_pos]
      · simp only [Res.ok.injEq, Prod.mk.injEq, and_true]
        rw [hre, List.take_take, min_eq_left hn]
      · show _ ≤ (view b.inner).data.length
        omega
  · exact readExactLoop_sim (lawful_buffered hS) _ n b h (le_refl _)

theorem Buf.seekRelative_sim {S : Source σ} {view : σ → Reader} {inv : σ → Prop} (hS : Lawful S view inv)
    (off : U64) (b : Buf σ) (h : Buf.Inv view inv b) :
    Sim (Buf.view view) (Buf.Inv view inv) (b.seekRelative S off)
      (Poppy.seekRelative off (b.view view)) := by
  unfold Buf.seekRelative Poppy.seekRelative
  dsimp only
  generalize off.toInt = d
  split
  · rename_i hd
    have hl : b.rest.length = b.buf.length - b.pos := by simp [Buf.rest]
    have hp := h.2.1
    by_cases h0 : b.buf = []
    · rw [h0] at hd hp
      simp only [List.length_nil] at hd hp
      have hd0 : d = 0 := by omega
      subst hd0
      rw [if_neg (by omega)]
      refine ⟨⟨h.1, by simp only; omega, h.2.2⟩, ?_⟩
      simp [Buf.view, Buf.rest]
    · obtain ⟨h1, _⟩ := h.2.2 h0
      have hv : ((b.view view).pos : Int) = (view b.inner).pos - b.rest.length := by
        show (((view b.inner).pos - b.rest.length : ℕ) : Int) = _
        omega
      rw [hv, if_neg (by omega)]
      refine ⟨⟨h.1, by simp only; omega, h.2.2⟩, ?_⟩
      unfold Buf.view
      simp only [Res.ok.injEq, Prod.mk.injEq, true_and, Reader.mk.injEq, and_true, Buf.rest,
        List.length_drop]
      omega
  · have hs := Buf.seek_ok hS d b h
    revert hs
    cases b.seek S d with
    | ok b' =>
      rintro ⟨h1, h2, h3⟩
      refine ⟨h1, ?_⟩
      rw [if_neg (by omega), h3]
    | err e =>
      rintro ⟨h1, h2⟩
      show _ = Res.err e
      rw [if_pos h2, h1]
    | panic => exact False.elim

/-! ## The scripted reader -/

/-- The data of a scripted reader. -/
abbrev Script.view (s : Script) : Reader := s.reader

theorem Script.deliver_good (sizes : Nat → Nat) {n : Nat} {s : Script} (hn : 0 < n) {m : Nat}
    (hm : n ≤ m) : Good (scripted sizes) Script.view (fun _ => True) m s (s.deliver n) := by
  obtain ⟨⟨data, pos, failAt⟩, es, g⟩ := s
  unfold Script.deliver
  have key : ∀ q, 0 < q → q ≤ n → (∀ k, failAt = some k → k ≤ data.length → pos + q ≤ k) →
      Good (scripted sizes) Script.view (fun _ => True) m ⟨⟨data, pos, failAt⟩, es, g⟩
        (.data ((data.drop pos).take q) ⟨⟨data, pos + ((data.drop pos).take q).length, failAt⟩, es,
          g + ((data.drop pos).take q).length⟩) := by
    intro q hq hqn hk
    have hl : ((data.drop pos).take q).length = min q (data.length - pos) := by simp
    refine ⟨trivial, by rw [hl]; omega, ?_, ?_, ?_, rfl, le_refl _⟩
    · unfold Reader.failsBefore
      simp only
      split
      · rfl
      · rename_i _ k
        simp only [Bool.and_eq_false_iff, decide_eq_false_iff_not]
        by_cases hkl : k ≤ data.length
        · left
          have := hk k rfl hkl
          omega
        · exact Or.inr hkl
    · show _ = (data.drop pos).take ((data.drop pos).take q).length
      rw [hl]
      conv_lhs => rw [← List.take_length (l := data.drop pos), List.take_take, List.length_drop]
    · intro e
      have := congrArg List.length e
      rw [hl, List.length_nil] at this
      show data.length ≤ pos
      omega
  cases failAt with
  | none =>
    dsimp only
    exact key n hn (le_refl _) (by simp)
  | some k =>
    dsimp only
    split
    · split
      · refine ⟨rfl, ?_⟩
        show (decide (k < pos + 1) && decide (k ≤ data.length)) = true
        simp only [Bool.and_eq_true, decide_eq_true_eq]
        omega
      · exact key (min n (k - pos)) (by omega) (by omega) (by simp only [Option.some.injEq]; omega)
    · exact key n hn (le_refl _) (by simp only [Option.some.injEq]; omega)

theorem Script.read_good (sizes : Nat → Nat) {n : Nat} {s : Script} (hn : 0 < n) :
    Good (scripted sizes) Script.view (fun _ => True) n s (s.read n) := by
  obtain ⟨r, es, given⟩ := s
  unfold Script.read
  cases es with
  | nil => exact Script.deliver_good sizes hn (le_refl _)
  | cons e es =>
    cases e with
    | interrupt => exact ⟨trivial, rfl, by simp [scripted]⟩
    | atMost m =>
      have h := Script.deliver_good sizes (n := min n (m + 1)) (m := n) (s := ⟨r, es, given⟩) (by omega)
        (by omega)
      dsimp only
      revert h
      cases Script.deliver (min n (m + 1)) ⟨r, es, given⟩ with
      | error k => exact id
      | interrupted s' =>
        rintro ⟨h1, h2, h3⟩
        exact ⟨h1, h2, Nat.lt_of_lt_of_le h3 (by simp [scripted])⟩
      | data bs s' =>
        rintro ⟨h1, h2, h3, h4, h5, h6, h7⟩
        exact ⟨h1, h2, h3, h4, h5, h6, Nat.le_trans h7 (by simp [scripted])⟩

/-- Reading everything in two steps. -/
theorem readToEnd_split {r : Reader} {m : Nat} (hl : r.pos + m ≤ r.data.length) :
    Poppy.readToEnd r = match Poppy.readToEnd { r with pos := r.pos + m } with
      | .ok (rest, r') => .ok ((r.data.drop r.pos).take m ++ rest, r')
      | .err e => .err e
      | .panic => .panic := by
  unfold Poppy.readToEnd
  have e1 : max r.pos r.data.length = r.data.length := by omega
  have e2 : max (r.pos + m) r.data.length = r.data.length := by omega
  simp only [failsBefore_pos, e1, e2]
  by_cases h : r.failsBefore (r.data.length + 1) = true
  · rw [if_pos h, if_pos h]
  · rw [if_neg h, if_neg h]
    simp only [Res.ok.injEq, Prod.mk.injEq, and_true]
    rw [← List.drop_drop, List.take_append_drop]

theorem Script.toEnd_sim (sizes : Nat → Nat) (fuel : Nat) : ∀ i (s : Script),
    s.events.length + (s.reader.data.length - s.reader.pos) < fuel →
    Sim Script.view (fun _ => True) (s.readToEndLoop sizes fuel i) (Poppy.readToEnd s.reader) := by
  induction fuel with
  | zero => intro i s h; omega
  | succ fuel ih =>
    intro i s h
    have hg := Script.read_good sizes (n := sizes i + 1) (s := s) (by omega)
    unfold Script.readToEndLoop
    cases hr : s.read (sizes i + 1) with
    | error k =>
      rw [hr] at hg
      obtain ⟨rfl, hf⟩ := hg
      show Poppy.readToEnd s.reader = _
      unfold Poppy.readToEnd
      rw [if_pos (failsBefore_mono (by simp only [Script.view]; omega) hf)]
    | interrupted s' =>
      rw [hr] at hg
      obtain ⟨_, hv, hlt⟩ := hg
      have hv : s'.reader = s.reader := hv
      have hlt : s'.events.length < s.events.length := hlt
      have := ih (i + 1) s' (by rw [hv]; omega)
      rwa [hv] at this
    | data bs s' =>
      rw [hr] at hg
      obtain ⟨_, _, hf, hbs, hend, hv, hint⟩ := hg
      have hv : s'.reader = { s.reader with pos := s.reader.pos + bs.length } := hv
      have hint : s'.events.length ≤ s.events.length := hint
      cases bs with
      | nil =>
        have hend : s.reader.data.length ≤ s.reader.pos := hend rfl
        refine ⟨trivial, ?_⟩
        show Poppy.readToEnd s.reader = .ok ([], s'.reader)
        unfold Poppy.readToEnd
        rw [failsBefore_end (r := s.reader) (a := s.reader.pos + max 1 ([] : List U8).length)
          (by simp; omega) hf, if_neg (by simp), List.drop_eq_nil_of_le hend, hv, max_eq_left hend]
        rfl
      | cons c t =>
        have hl : s.reader.pos + (c :: t).length ≤ s.reader.data.length :=
          piece_length (r := s.reader) hbs (by simp)
        have hpos : 0 < (c :: t).length := by simp
        have := ih (i + 1) s' (by rw [hv]; simp only; omega)
        rw [hv] at this
        rw [readToEnd_split hl, ← show c :: t = (s.reader.data.drop s.reader.pos).take (c :: t).length from hbs]
        dsimp only
        generalize c :: t = bs at *
        revert this
        cases Script.readToEndLoop sizes fuel (i + 1) s' with
        | ok x =>
          obtain ⟨rest, s2⟩ := x
          rintro ⟨h1, h2⟩
          rw [h2]
          exact ⟨h1, rfl⟩
        | err e =>
          intro h
          change Poppy.readToEnd _ = _ at h
          rw [h]
          rfl
        | panic =>
          intro h
          change Poppy.readToEnd _ = _ at h
          rw [h]
          rfl

theorem lawful_scripted (sizes : Nat → Nat) :
    Lawful (scripted sizes) Script.view (fun _ => True) where
  read := fun n s hn _ => Script.read_good sizes hn
  toEnd := fun s _ => Script.toEnd_sim sizes _ 0 s (by omega)
  seek := fun d s _ => by
    show SeekOk _ _ d s (s.seek d)
    unfold Script.seek
    dsimp only
    split
    · exact ⟨rfl, by assumption⟩
    · exact ⟨trivial, by simp only [Script.view]; omega, rfl⟩

/-! ## Loading -/

section
variable {S : Source σ} {view : σ → Reader} {inv : σ → Prop}

/-- Sequencing, where only the value of the result is compared. -/
theorem Sim.bindMap {β γ : Type} {x : Res (α × σ)} {y : Res (α × Reader)} (h : Sim view inv x y)
    {f : α × σ → Res (β × γ)} {g : α × Reader → Res β}
    (hfg : ∀ a s, inv s → (f (a, s)).map Prod.fst = g (a, view s)) :
    (x >>= f).map Prod.fst = (y >>= g) := by
  cases x with
  | ok x =>
    obtain ⟨a, s⟩ := x
    obtain ⟨h1, h2⟩ := h
    rw [h2]
    exact hfg a s h1
  | err e => change y = _ at h; rw [h]; rfl
  | panic => change y = _ at h; rw [h]; rfl

theorem Sim.bind' {β : Type} {x : Res (α × σ)} {y : Res (α × Reader)} (h : Sim view inv x y)
    {f : α × σ → Res (β × σ)} {g : α × Reader → Res (β × Reader)}
    (hfg : ∀ a s, inv s → Sim view inv (f (a, s)) (g (a, view s))) :
    Sim view inv (x >>= f) (y >>= g) := by
  cases x with
  | ok x =>
    obtain ⟨a, s⟩ := x
    obtain ⟨h1, h2⟩ := h
    rw [h2]
    exact hfg a s h1
  | err e => change y = _ at h; rw [h]; exact rfl
  | panic => change y = _ at h; rw [h]; exact rfl

theorem readLeU64_sim (hS : Lawful S view inv) (b : Buf σ) (h : Buf.Inv view inv b) :
    Sim (Buf.view view) (Buf.Inv view inv) (readLeU64 S b) (Poppy.readLeU64 (b.view view)) := by
  have := Buf.readExact_sim hS 8 b h
  unfold readLeU64 Poppy.readLeU64
  revert this
  cases b.readExact S 8 with
  | ok x => rintro ⟨h1, h2⟩; rw [h2]; exact ⟨h1, rfl⟩
  | err e => intro h; change Poppy.readExact _ _ = _ at h; rw [h]; exact rfl
  | panic => intro h; change Poppy.readExact _ _ = _ at h; rw [h]; exact rfl

theorem readFlags_sim (hS : Lawful S view inv) (b : Buf σ) (h : Buf.Inv view inv b) :
    Sim (Buf.view view) (Buf.Inv view inv) (readFlags S b) (Poppy.readFlags (b.view view)) := by
  have := Buf.readExact_sim hS 8 b h
  unfold readFlags Poppy.readFlags
  revert this
  cases b.readExact S 8 with
  | ok x =>
    rintro ⟨h1, h2⟩
    rw [h2]
    simp only [Res.bind_ok]
    cases Flags.fromBytes x.1 with
    | ok f => exact ⟨h1, rfl⟩
    | err e => exact rfl
    | panic => exact rfl
  | err e => intro h; change Poppy.readExact _ _ = _ at h; rw [h]; exact rfl
  | panic => intro h; change Poppy.readExact _ _ = _ at h; rw [h]; exact rfl

theorem readWords_sim (hS : Lawful S view inv) : ∀ n (b : Buf σ), Buf.Inv view inv b →
    Sim (Buf.view view) (Buf.Inv view inv) (readWords S n b) (V1.readWords n (b.view view)) := by
  intro n
  induction n with
  | zero => intro b h; exact ⟨h, rfl⟩
  | succ n ih =>
    intro b h
    have e : V1.readWords (n + 1) (b.view view) = (Poppy.readLeU64 (b.view view) >>= fun x =>
        V1.readWords n x.2 >>= fun y => .ok (x.1 :: y.1, y.2)) := by
      conv_lhs => unfold V1.readWords
      cases Poppy.readLeU64 (b.view view) with
      | ok x =>
        obtain ⟨w, r⟩ := x
        simp only [Res.bind_ok]
        cases V1.readWords n r <;> rfl
      | err e => rfl
      | panic => rfl
    rw [e]
    exact Sim.bind' (readLeU64_sim hS b h) fun w b h =>
      Sim.bind' (ih b h) fun ws b h => ⟨h, rfl⟩

theorem readBitset_sim (hS : Lawful S view inv) (env : Env) (bitSize : U64) (partialRead : Bool)
    (b : Buf σ) (h : Buf.Inv view inv b) :
    Sim (Buf.view view) (Buf.Inv view inv) (readBitset S env bitSize partialRead b)
      (V1.readBitset env bitSize partialRead (b.view view)) := by
  unfold readBitset V1.readBitset
  dsimp only
  cases partialRead
  · simp only [Bool.false_eq_true, if_false]
    cases env.alloc (u64SizeFor bitSize).toNat 8 with
    | ok u => exact readWords_sim hS _ b h
    | err e => exact rfl
    | panic => exact rfl
  · simp only [if_true]
    cases mulU64 env.debug (u64SizeFor bitSize) 8#64 with
    | ok off =>
      have := Buf.seekRelative_sim hS off b h
      simp only [Res.bind_ok]
      revert this
      cases b.seekRelative S off with
      | ok x => rintro ⟨h1, h2⟩; rw [h2]; exact ⟨h1, rfl⟩
      | err e => intro h; change Poppy.seekRelative _ _ = _ at h; rw [h]; exact rfl
      | panic => intro h; change Poppy.seekRelative _ _ = _ at h; rw [h]; exact rfl
    | err e => exact rfl
    | panic => exact rfl

theorem readBuckets_sim (hS : Lawful S view inv) : ∀ n (b : Buf σ), Buf.Inv view inv b →
    Sim (Buf.view view) (Buf.Inv view inv) (readBuckets S n b) (V2.readBuckets n (b.view view)) := by
  intro n
  induction n with
  | zero => intro b h; exact ⟨h, rfl⟩
  | succ n ih =>
    intro b h
    have e : V2.readBuckets (n + 1) (b.view view) = (Poppy.readExact BUCKET_SIZE (b.view view) >>= fun x =>
        V2.readBuckets n x.2 >>= fun y => if h : x.1.length = BUCKET_SIZE then
          .ok (⟨⟨x.1.toArray, by simpa using h⟩⟩ :: y.1, y.2) else .panic) := by
      conv_lhs => unfold V2.readBuckets
      cases Poppy.readExact BUCKET_SIZE (b.view view) with
      | ok x =>
        obtain ⟨w, r⟩ := x
        simp only [Res.bind_ok]
        cases V2.readBuckets n r <;> rfl
      | err e => rfl
      | panic => rfl
    rw [e]
    refine Sim.bind' (Buf.readExact_sim hS _ b h) fun w b h => Sim.bind' (ih b h) fun ws b h => ?_
    dsimp only
    split
    · exact ⟨h, rfl⟩
    · exact rfl

theorem readCache_sim (hS : Lawful S view inv) (env : Env) (size : U64) (partialRead : Bool)
    (b : Buf σ) (h : Buf.Inv view inv b) :
    Sim (Buf.view view) (Buf.Inv view inv) (readCache S env size partialRead b)
      (V2.readCache env size partialRead (b.view view)) := by
  unfold readCache V2.readCache
  dsimp only
  cases partialRead
  · simp only [Bool.false_eq_true, if_false]
    cases env.alloc (byteCapFromBitCap size).toNat 1 with
    | ok u =>
      have := Buf.readExact_sim hS (VecBitSet.withBitCapacity size).byteLen b h
      simp only [Res.bind_ok]
      revert this
      cases b.readExact S (VecBitSet.withBitCapacity size).byteLen with
      | ok x => rintro ⟨h1, h2⟩; rw [h2]; exact ⟨h1, rfl⟩
      | err e => intro h; change Poppy.readExact _ _ = _ at h; rw [h]; exact rfl
      | panic => intro h; change Poppy.readExact _ _ = _ at h; rw [h]; exact rfl
    | err e => exact rfl
    | panic => exact rfl
  · simp only [if_true]
    have := Buf.seekRelative_sim hS (byteCapFromBitCap size) b h
    revert this
    cases b.seekRelative S (byteCapFromBitCap size) with
    | ok x => rintro ⟨h1, h2⟩; rw [h2]; exact ⟨h1, rfl⟩
    | err e => intro h; change Poppy.seekRelative _ _ = _ at h; rw [h]; exact rfl
    | panic => intro h; change Poppy.seekRelative _ _ = _ at h; rw [h]; exact rfl

theorem readAllBuckets_sim (hS : Lawful S view inv) (env : Env) (n : U64) (partialRead : Bool)
    (b : Buf σ) (h : Buf.Inv view inv b) :
    Sim (Buf.view view) (Buf.Inv view inv) (readAllBuckets S env n partialRead b)
      (V2.readAllBuckets env n partialRead (b.view view)) := by
  unfold readAllBuckets V2.readAllBuckets
  cases partialRead
  · simp only [Bool.false_eq_true, if_false]
    cases env.alloc n.toNat BUCKET_SIZE with
    | ok u => exact readBuckets_sim hS _ b h
    | err e => exact rfl
    | panic => exact rfl
  · simp only [if_true]
    cases mulU64 env.debug n (BitVec.ofNat 64 BUCKET_SIZE) with
    | ok off =>
      have := Buf.seekRelative_sim hS off b h
      simp only [Res.bind_ok]
      revert this
      cases b.seekRelative S off with
      | ok x => rintro ⟨h1, h2⟩; rw [h2]; exact ⟨h1, rfl⟩
      | err e => intro h; change Poppy.seekRelative _ _ = _ at h; rw [h]; exact rfl
      | panic => intro h; change Poppy.seekRelative _ _ = _ at h; rw [h]; exact rfl
    | err e => exact rfl
    | panic => exact rfl

theorem v1FromReaderWithFlags_eq (hS : Lawful S view inv) (env : Env) (flags : Flags)
    (partialRead : Bool) (s : σ) (h : inv s) :
    (v1FromReaderWithFlags S env flags partialRead s).map Prod.fst =
      V1.fromReaderWithFlags env flags partialRead (view s) := by
  unfold v1FromReaderWithFlags V1.fromReaderWithFlags
  rw [← Buf.view_empty (view := view) s]
  refine Sim.bindMap (readLeU64_sim hS _ (Buf.inv_empty h)) fun _ b h => ?_
  refine Sim.bindMap (readLeU64_sim hS b h) fun _ b h => ?_
  refine Sim.bindMap (readLeU64_sim hS b h) fun _ b h => ?_
  refine Sim.bindMap (readLeU64_sim hS b h) fun _ b h => ?_
  refine Sim.bindMap (readLeU64_sim hS b h) fun _ b h => ?_
  refine Sim.bindMap (readBitset_sim hS env _ partialRead b h) fun _ b h => ?_
  exact Sim.bindMap (Buf.toEnd_sim hS b h) fun _ b h => rfl

theorem v2FromReaderWithFlags_eq (hS : Lawful S view inv) (env : Env) (flags : Flags)
    (partialRead : Bool) (s : σ) (h : inv s) :
    (v2FromReaderWithFlags S env flags partialRead s).map Prod.fst =
      V2.fromReaderWithFlags env flags partialRead (view s) := by
  unfold v2FromReaderWithFlags V2.fromReaderWithFlags
  rw [← Buf.view_empty (view := view) s]
  refine Sim.bindMap (readLeU64_sim hS _ (Buf.inv_empty h)) fun _ b h => ?_
  refine Sim.bindMap (readLeU64_sim hS b h) fun fpp b h => ?_
  dsimp only
  split
  · rfl
  · refine Sim.bindMap (readLeU64_sim hS b h) fun _ b h => ?_
    refine Sim.bindMap (readLeU64_sim hS b h) fun _ b h => ?_
    refine Sim.bindMap (readLeU64_sim hS b h) fun _ b h => ?_
    refine Sim.bindMap (readCache_sim hS env _ partialRead b h) fun _ b h => ?_
    refine Sim.bindMap (readLeU64_sim hS b h) fun _ b h => ?_
    refine Sim.bindMap (readAllBuckets_sim hS env _ partialRead b h) fun _ b h => ?_
    exact Sim.bindMap (Buf.toEnd_sim hS b h) fun _ b h => rfl

theorem v1FromReader'_eq (hS : Lawful S view inv) (env : Env) (partialRead : Bool) (s : σ) (h : inv s) :
    (v1FromReader' S env partialRead s).map Prod.fst = V1.fromReader' env partialRead (view s) := by
  unfold v1FromReader' V1.fromReader'
  rw [← Buf.view_empty (view := view) s]
  refine Sim.bindMap (readFlags_sim hS _ (Buf.inv_empty h)) fun fl b h => ?_
  dsimp only
  split
  · rfl
  · exact v1FromReaderWithFlags_eq (lawful_buffered hS) env fl partialRead b h

theorem v2FromReader'_eq (hS : Lawful S view inv) (env : Env) (partialRead : Bool) (s : σ) (h : inv s) :
    (v2FromReader' S env partialRead s).map Prod.fst = V2.fromReader' env partialRead (view s) := by
  unfold v2FromReader' V2.fromReader'
  rw [← Buf.view_empty (view := view) s]
  refine Sim.bindMap (readFlags_sim hS _ (Buf.inv_empty h)) fun fl b h => ?_
  dsimp only
  split
  · rfl
  · exact v2FromReaderWithFlags_eq (lawful_buffered hS) env fl partialRead b h

theorem fromReaderAux_eq (hS : Lawful S view inv) (env : Env) (partialRead : Bool) (s : σ) (h : inv s) :
    (fromReaderAux S env partialRead s).map Prod.fst = Bloom.fromReaderAux env partialRead (view s) := by
  have e : Bloom.fromReaderAux env partialRead (view s) = (Poppy.readFlags (view s) >>= fun x =>
      if x.1.version = 1#8 then
        V1.fromReaderWithFlags env x.1 partialRead x.2 >>= fun f => .ok (.v1 f)
      else if x.1.version = 2#8 then
        V2.fromReaderWithFlags env x.1 partialRead x.2 >>= fun f => .ok (.v2 f)
      else .err (.invalidVersion x.1.version)) := by
    unfold Bloom.fromReaderAux
    cases Poppy.readFlags (view s) with
    | ok x =>
      obtain ⟨fl, r⟩ := x
      simp only [Res.bind_ok]
      split
      · cases V1.fromReaderWithFlags env fl partialRead r <;> rfl
      · split
        · cases V2.fromReaderWithFlags env fl partialRead r <;> rfl
        · rfl
    | err e => rfl
    | panic => rfl
  rw [e]
  unfold fromReaderAux
  rw [← Buf.view_empty (view := view) s]
  refine Sim.bindMap (readFlags_sim hS _ (Buf.inv_empty h)) fun fl b h => ?_
  dsimp only
  rw [← v1FromReaderWithFlags_eq (lawful_buffered hS) env fl partialRead b h,
    ← v2FromReaderWithFlags_eq (lawful_buffered hS) env fl partialRead b h]
  split
  · cases v1FromReaderWithFlags (buffered S) env fl partialRead b <;> rfl
  · split
    · cases v2FromReaderWithFlags (buffered S) env fl partialRead b <;> rfl
    · rfl

end

/-! ## Lines -/

/-- What can still be read. -/
def avail (r : Reader) : List U8 :=
  match r.failAt with
  | none => r.data.drop r.pos
  | some k => if k ≤ r.data.length then (r.data.take k).drop r.pos else r.data.drop r.pos

/-- Does the reader fail somewhere? -/
def broken (r : Reader) : Bool := r.failsBefore (r.data.length + 1)

theorem avail_split {r : Reader} {bs : List U8} (h : bs = (r.data.drop r.pos).take bs.length)
    (hf : r.failsBefore (r.pos + max 1 bs.length) = false) :
    avail r = bs ++ avail { r with pos := r.pos + bs.length } := by
  obtain ⟨data, pos, failAt⟩ := r
  simp only at h hf
  unfold avail
  simp only
  have e0 : data.drop pos = bs ++ data.drop (pos + bs.length) := by
    conv_lhs => rw [← List.take_append_drop bs.length (data.drop pos), ← h, List.drop_drop]
  cases failAt with
  | none => exact e0
  | some k =>
    dsimp only
    split
    · rename_i hk
      simp only [Reader.failsBefore, Bool.and_eq_false_iff, decide_eq_false_iff_not] at hf
      have hk' : pos + bs.length ≤ k := by omega
      rw [List.drop_take, List.drop_take, e0, List.take_append, List.take_of_length_le (by omega)]
      congr 2
      omega
    · exact e0

theorem readUntilLf_append {bs t : List U8} (h : Cli.LF ∉ bs) :
    Cli.readUntilLf (bs ++ t) = (bs ++ (Cli.readUntilLf t).1, (Cli.readUntilLf t).2) := by
  induction bs with
  | nil => simp
  | cons c bs ih =>
    have hc : c ≠ Cli.LF := fun e => h (by simp [e])
    have ih := ih fun hm => h (List.mem_cons_of_mem _ hm)
    simp [Cli.readUntilLf, hc, ih]

theorem readUntilLf_mem {bs t : List U8} (h : Cli.LF ∈ bs) :
    Cli.readUntilLf (bs ++ t) =
      (bs.take (bs.idxOf Cli.LF + 1), bs.drop (bs.idxOf Cli.LF + 1) ++ t) := by
  induction bs with
  | nil => simp at h
  | cons c bs ih =>
    by_cases hc : c = Cli.LF
    · simp [Cli.readUntilLf, hc]
    · have hm : Cli.LF ∈ bs := by
        rcases List.mem_cons.1 h with e | e
        · exact absurd e.symm hc
        · exact e
      have ih := ih hm
      have hidx : (c :: bs).idxOf Cli.LF = bs.idxOf Cli.LF + 1 := by
        rw [List.idxOf_cons_ne _ hc]
      rw [hidx]
      simp [Cli.readUntilLf, hc, ih]

theorem readUntilLf_join (l : List U8) : (Cli.readUntilLf l).1 ++ (Cli.readUntilLf l).2 = l := by
  induction l with
  | nil => rfl
  | cons c l ih => by_cases hc : c = Cli.LF <;> simp [Cli.readUntilLf, hc, ih]

theorem readUntilLf_none {l : List U8} (h : Cli.LF ∉ l) : Cli.readUntilLf l = (l, []) := by
  have := readUntilLf_append (t := []) h
  simpa [Cli.readUntilLf] using this

section
variable {S : Source σ} {view : σ → Reader} {inv : σ → Prop}

theorem readUntil_spec (hS : Lawful S view inv) (fuel : Nat) : ∀ b : Buf σ, Buf.Inv view inv b →
    (avail (b.view view)).length + S.interrupts b.inner + 1 ≤ fuel →
    if Cli.LF ∈ avail (b.view view) ∨ broken (b.view view) = false then
      ∃ b', readUntil S fuel b = .ok ((Cli.readUntilLf (avail (b.view view))).1, b') ∧
        Buf.Inv view inv b' ∧ avail (b'.view view) = (Cli.readUntilLf (avail (b.view view))).2 ∧
        broken (b'.view view) = broken (b.view view) ∧ S.interrupts b'.inner ≤ S.interrupts b.inner
    else readUntil S fuel b = .err (.ioError .other) := by
  induction fuel with
  | zero => intro b _ h; omega
  | succ fuel ih =>
    intro b hi hfuel
    obtain ⟨hg, hd⟩ := Buf.fill_good hS hi
    unfold readUntil
    cases hr : b.fill S with
    | error k =>
      rw [hr] at hg
      obtain ⟨rfl, hf⟩ := hg
      have h1 : avail (b.view view) = [] ∧ broken (b.view view) = true := by
        revert hf
        generalize b.view view = r
        obtain ⟨data, pos, failAt⟩ := r
        unfold avail broken Reader.failsBefore
        cases failAt with
        | none => simp
        | some k =>
          simp only [Bool.and_eq_true, decide_eq_true_eq]
          rintro ⟨h1, h2⟩
          rw [if_pos h2]
          refine ⟨List.drop_eq_nil_of_le ?_, by omega, h2⟩
          rw [List.length_take]
          omega
      rw [if_neg (by simp [h1.1, h1.2])]
    | interrupted b' =>
      rw [hr] at hg
      obtain ⟨hi', hv, hlt⟩ := hg
      have hlt : S.interrupts b'.inner < S.interrupts b.inner := hlt
      have := ih b' hi' (by rw [hv]; omega)
      rw [hv] at this
      revert this
      split
      · rintro ⟨b2, h1, h2, h3, h4, h5⟩
        exact ⟨b2, h1, h2, h3, h4, by omega⟩
      · exact id
    | data bs b' =>
      obtain ⟨he, hi', hv, hint, hend, hf⟩ := hd bs b' hr
      have hre := Buf.rest_eq hi'
      rw [← he, hv] at hre
      have hsp := avail_split hre hf
      dsimp only
      by_cases hlf : Cli.LF ∈ bs
      · rw [if_pos hlf, if_pos (by rw [hsp]; simp [hlf])]
        have hidx : bs.idxOf Cli.LF < bs.length := List.idxOf_lt_length_iff.2 hlf
        obtain ⟨c1, c2⟩ := Buf.consume hi' (n := bs.idxOf Cli.LF + 1) (by rw [← he]; omega)
        have hm := readUntilLf_mem (t := avail { b.view view with pos := (b.view view).pos + bs.length }) hlf
        refine ⟨_, ?_, c1, ?_, ?_, hint⟩
        · rw [hsp, hm]
        · rw [hsp, hm, c2, hv]
          have hre2 : bs.take (bs.idxOf Cli.LF + 1) =
              ((b.view view).data.drop (b.view view).pos).take (bs.take (bs.idxOf Cli.LF + 1)).length := by
            rw [List.length_take, min_eq_left (by omega)]
            have e := congrArg (List.take (bs.idxOf Cli.LF + 1)) hre
            rwa [List.take_take, min_eq_left (by omega)] at e
          have h2 := avail_split hre2 (failsBefore_anti (by rw [List.length_take]; omega) hf)
          have h3 := hsp.symm.trans h2
          have h4 : bs.take (bs.idxOf Cli.LF + 1) ++ (bs.drop (bs.idxOf Cli.LF + 1) ++
              avail { b.view view with pos := (b.view view).pos + bs.length }) =
              bs.take (bs.idxOf Cli.LF + 1) ++ avail { b.view view with
                pos := (b.view view).pos + (bs.take (bs.idxOf Cli.LF + 1)).length } := by
            rw [← List.append_assoc, List.take_append_drop]
            exact h3
          have h5 := List.append_cancel_left h4
          rw [List.length_take, min_eq_left (by omega)] at h5
          exact h5.symm
        · rw [c2, hv]; rfl
      · rw [if_neg hlf]
        by_cases h0 : bs = []
        · rw [if_pos h0]
          have hend := hend (by rw [← he]; exact h0)
          have hb : broken (b.view view) = false := failsBefore_end (by rw [h0]; simp; omega) hf
          have ha : avail (b.view view) = [] := by
            revert hb hend
            generalize b.view view = r
            obtain ⟨data, pos, failAt⟩ := r
            unfold avail broken Reader.failsBefore
            cases failAt with
            | none => intro h _; exact List.drop_eq_nil_of_le h
            | some k =>
              simp only [Bool.and_eq_false_iff, decide_eq_false_iff_not]
              intro h1 h2
              rw [if_neg (by omega)]
              exact List.drop_eq_nil_of_le h1
          rw [if_pos (Or.inr hb)]
          refine ⟨b', by rw [ha]; rfl, hi', ?_, by rw [hv], hint⟩
          rw [hv, ha]
          rfl
        · rw [if_neg h0]
          have hpos := List.length_pos_iff.2 h0
          obtain ⟨c1, c2⟩ := Buf.consume hi' (n := bs.length) (by rw [← he])
          rw [hv] at c2
          have hfu : (avail (Buf.view view { b' with pos := b'.pos + bs.length })).length +
              S.interrupts b'.inner + 1 ≤ fuel := by
            rw [c2]
            have := congrArg List.length hsp
            rw [List.length_append] at this
            simp only at this ⊢
            omega
          have := ih _ c1 hfu
          rw [c2] at this
          have hb : broken { b.view view with pos := (b.view view).pos + bs.length } =
            broken (b.view view) := rfl
          rw [hb] at this
          rw [hsp, readUntilLf_append hlf]
          have hmem : (Cli.LF ∈ bs ++ avail { b.view view with pos := (b.view view).pos + bs.length } ∨
              broken (b.view view) = false) ↔
              (Cli.LF ∈ avail { b.view view with pos := (b.view view).pos + bs.length } ∨
              broken (b.view view) = false) := by
            rw [List.mem_append]
            simp [hlf]
          simp only [hmem]
          revert this
          split
          · rintro ⟨b2, h1, h2, h3, h4, h5⟩
            refine ⟨b2, by rw [h1], h2, h3, h4, ?_⟩
            exact Nat.le_trans h5 hint
          · intro h
            rw [h]

theorem linesLoop_eq (hS : Lawful S view inv) (perLine : Nat) (fuel : Nat) :
    ∀ (b : Buf σ) (g : Nat), Buf.Inv view inv b →
    (avail (b.view view)).length + S.interrupts b.inner + 1 ≤ perLine →
    (avail (b.view view)).length < fuel → (avail (b.view view)).length < g →
    linesLoop S perLine fuel b = if broken (b.view view) then Cli.brokenLinesAux g (avail (b.view view))
      else Cli.linesAux g (avail (b.view view)) := by
  induction fuel with
  | zero => intro b g _ _ h; omega
  | succ fuel ih =>
    intro b g hi hp hl hg
    obtain ⟨g, rfl⟩ : ∃ g', g = g' + 1 := ⟨g - 1, by omega⟩
    have hu := readUntil_spec hS perLine b hi hp
    unfold linesLoop
    have hj := congrArg List.length (readUntilLf_join (avail (b.view view)))
    rw [List.length_append] at hj
    by_cases hc : Cli.LF ∈ avail (b.view view) ∨ broken (b.view view) = false
    · rw [if_pos hc] at hu
      obtain ⟨b', h1, h2, h3, h4, h5⟩ := hu
      rw [h1]
      cases hline : (Cli.readUntilLf (avail (b.view view))).1 with
      | nil =>
        have ha : avail (b.view view) = [] := by
          cases ha : avail (b.view view) with
          | nil => rfl
          | cons c t =>
            rw [ha] at hline
            by_cases hcl : c = Cli.LF <;> simp [Cli.readUntilLf, hcl] at hline
        have hb : broken (b.view view) = false := by simpa [ha] using hc
        simp [hb, ha, Cli.linesAux, Cli.readUntilLf]
      | cons c t =>
        rw [hline, List.length_cons] at hj
        dsimp only
        have := ih b' g h2 (by rw [h3]; omega) (by rw [h3]; omega) (by rw [h3]; omega)
        rw [this, h3, h4]
        cases hb : broken (b.view view) with
        | false =>
          simp only [Bool.false_eq_true, if_false]
          conv_rhs => unfold Cli.linesAux
          generalize hx : Cli.readUntilLf (avail (b.view view)) = x at *
          obtain ⟨l, rest⟩ := x
          simp only at hline
          subst hline
          rfl
        | true =>
          have hm : Cli.LF ∈ avail (b.view view) := by simpa [hb] using hc
          simp only [if_true]
          conv_rhs => unfold Cli.brokenLinesAux
          rw [if_pos hm, hline]
    · rw [if_neg hc] at hu
      rw [hu]
      simp only [not_or, Bool.not_eq_false] at hc
      simp [hc.2, Cli.brokenLinesAux, hc.1]

end

/-- The lines that `lines()` of a `BufReader` around any lawful reader gives. -/
theorem lines_of_lawful {σ : Type} {S : Source σ} {view : σ → Reader} {inv : σ → Prop}
    (hS : Lawful S view inv) {s : σ} (hi : inv s) {data : List U8} {failAt : Option ℕ}
    (hv : view s = ⟨data, 0, failAt⟩) (hk : ∀ k, failAt = some k → k ≤ data.length) {perLine fuel : ℕ}
    (hp : data.length + S.interrupts s < perLine) (hf : data.length < fuel) :
    linesLoop S perLine fuel (Buf.new s) = Cli.fileLines ⟨data, 0, failAt⟩ := by
  have e : Buf.view view (Buf.new s) = ⟨data, 0, failAt⟩ := (Buf.view_empty _).trans hv
  cases failAt with
  | none =>
    have ha : avail ⟨data, 0, none⟩ = data := rfl
    have := linesLoop_eq hS perLine fuel (Buf.new s) (data.length + 1)
      (Buf.inv_empty hi) (by rw [e, ha]; exact hp) (by rw [e, ha]; exact hf)
      (by rw [e, ha]; omega)
    rw [this, e]
    rfl
  | some k =>
    have hk := hk k rfl
    have ha : avail ⟨data, 0, some k⟩ = data.take k := by
      unfold avail
      simp [hk]
    have hb : broken ⟨data, 0, some k⟩ = true := by
      unfold broken Reader.failsBefore
      simp only [Bool.and_eq_true, decide_eq_true_eq]
      omega
    have hl : (data.take k).length = k := by simp [hk]
    have hp' : k + S.interrupts s + 1 ≤ perLine := by omega
    have := linesLoop_eq hS perLine fuel (Buf.new s) (k + 1)
      (Buf.inv_empty hi) (by rw [e, ha, hl]; exact hp') (by rw [e, ha, hl]; omega)
      (by rw [e, ha, hl]; omega)
    rw [this, e, hb, ha]
    rfl

end Poppy.Pieces
