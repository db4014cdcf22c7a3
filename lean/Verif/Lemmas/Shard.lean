import Verif.Lemmas.Fill
import Verif.Lemmas.Interop
import Verif.ShardSpec

/-! Lemmas about filters filled in parts. -/

namespace Poppy

open Spec Cli

namespace Bloom

theorem Given.union {env : Env} {f g g' h : Bloom} {es es' : List (List U8)} (a : Given env f es g)
    (b : Given env f es' g') (hu : g.unionMerge env g' = (h, .ok ())) :
    Given env f (es ++ es') h := by
  have ex : ∀ {q : List U8 → Prop}, (∃ k ∈ es ++ es', q k) ↔ (∃ k ∈ es, q k) ∨ ∃ k ∈ es', q k := by
    intro q
    simp only [List.mem_append, or_and_right, exists_or]
  have or3 : ∀ {a b c : Prop}, ((a ∨ b) ∨ a ∨ c) ↔ a ∨ b ∨ c := by intro a b c; tauto
  have or4 : ∀ {a b c d : Prop}, ((a ∨ d ∧ b) ∨ a ∨ d ∧ c) ↔ a ∨ d ∧ (b ∨ c) := by
    intro a b c d; tauto
  cases f with
  | v1 f =>
    cases g with
    | v2 g => exact a.elim
    | v1 g =>
    cases g' with
    | v2 g' => exact b.elim
    | v1 g' =>
      obtain ⟨_, h, e, rfl, hu⟩ := unionMerge_v1 hu
      cases e
      obtain ⟨s, -, hb⟩ := V1.unionAll_spec (env := env) (f := g) (gs := [g']) (g := h) (u := ()) (by
        simp only [V1.unionAll, hu])
      refine ⟨s.capacity.trans a.1, s.fpp.trans a.2, s.nHash.trans a.3, s.bitSize.trans a.4,
        s.data.trans a.5, s.len.trans a.6, fun i => ?_⟩
      rw [hb, a.bits, ex]
      simp only [List.mem_singleton, exists_eq_left, b.bits]
      exact or3
  | v2 f =>
    cases g with
    | v1 g => exact a.elim
    | v2 g =>
    cases g' with
    | v1 g' => exact b.elim
    | v2 g' =>
      obtain ⟨_, h, e, rfl, hu⟩ := unionMerge_v2 hu
      cases e
      obtain ⟨s, -, hb, hc⟩ := V2.unionAll_spec (env := env) (f := g) (gs := [g']) (g := h) (u := ()) (by
        simp only [V2.unionAll, hu])
      refine ⟨s.capacity.trans a.1, s.fpp.trans a.2, (by rw [s.flags]; exact a.3), s.nHash.trans a.4,
        s.data.trans a.5, s.blen.trans a.6, s.clen.trans a.7, fun i j => ?_, fun i => ?_⟩
      · rw [V2.bucketBit_eq, hb, ← V2.bucketBit_eq, a.bits, ex]
        simp only [List.mem_singleton, exists_eq_left, ← V2.bucketBit_eq, b.bits]
        exact or3
      · rw [hc, a.cache, ex]
        simp only [List.mem_singleton, exists_eq_left, b.cache]
        exact or4

/-- The flags are as written and read. -/
def Plain (f : Bloom) : Prop := f.canon = f

theorem plain_v1 (f : V1) : (Bloom.v1 f).Plain ↔ f.flags = Flags.new 1#8 := by
  unfold Plain Bloom.canon
  rw [Bloom.v1.injEq]
  exact ⟨fun h => by rw [← h]; rfl, V1.canon_eq⟩

theorem plain_v2 (f : V2) : (Bloom.v2 f).Plain ↔ f.flags.reserved = List.replicate 6 0#8 := by
  unfold Plain Bloom.canon
  rw [Bloom.v2.injEq]
  constructor
  · intro h
    rw [← h]
    rfl
  · intro h
    obtain ⟨⟨_, _, r⟩, _⟩ := f
    simp only at h
    subst h
    rfl

theorem plain_canon (f : Bloom) : f.canon.Plain := by cases f <;> rfl

theorem plain_new {env : Env} (hs : env.Small) {v : U8} {cap : U64} {fpp : F64} {l : OptLevel}
    {f : Bloom} (h : withVersionCapacityOpt env v cap fpp l = .ok f) : f.Plain := by
  unfold withVersionCapacityOpt at h
  split at h
  · obtain ⟨g, hg, rfl⟩ := Res.map_ok h
    exact (plain_v1 g).2 (V1.Built.make hg).inv.2.1
  · split at h
    · obtain ⟨g, hg, rfl⟩ := Res.map_ok h
      exact (plain_v2 g).2 ((V2.Built.make hg).inv hs).2.2
    · cases h

theorem Plain.insert {env : Env} {f : Bloom} (h : f.Plain) (k : List U8) :
    (f.insertBytes env k).1.Plain := by
  cases f with
  | v1 f =>
    have s := V1.inserts_shape env f [k]
    refine (plain_v1 _).2 ?_
    exact s.flags.trans ((plain_v1 f).1 h)
  | v2 f =>
    have s := V2.inserts_shape env f [.slice k]
    refine (plain_v2 _).2 ?_
    exact (congrArg Flags.reserved s.flags).trans ((plain_v2 f).1 h)

theorem Plain.union {env : Env} {f o g : Bloom} (h : f.Plain) (hu : f.unionMerge env o = (g, .ok ())) :
    g.Plain := by
  cases f with
  | v1 f =>
    obtain ⟨o', g, -, rfl, hu'⟩ := unionMerge_v1 hu
    have s := (V1.unionMerge_ext env f o').1
    rw [hu'] at s
    exact (plain_v1 _).2 (s.flags.trans ((plain_v1 f).1 h))
  | v2 f =>
    obtain ⟨o', g, -, rfl, hu'⟩ := unionMerge_v2 hu
    have s := (V2.unionMerge_ext env f o').1
    rw [hu'] at s
    exact (plain_v2 _).2 ((congrArg Flags.reserved s.flags).trans ((plain_v2 f).1 h))

/-- Objects with the same parameters can be merged. -/
theorem Given.params {env : Env} (hs : env.Small) {v : U8} {cap : U64} {fpp : F64} {l : OptLevel}
    {f g g' : Bloom} (hf : withVersionCapacityOpt env v cap fpp l = .ok f) {es es' : List (List U8)}
    (a : Given env f es g) (b : Given env f es' g') (ha : g.Plain) (hb : g'.Plain)
    (ra : g.Reach env) (rb : g'.Reach env) : g.hasSameParams g' = .ok true := by
  have hp := (new_spec hs hf).2.2.2.2.1
  cases f with
  | v1 f =>
    cases g with
    | v2 g => exact a.elim
    | v1 g =>
    cases g' with
    | v2 g' => exact b.elim
    | v1 g' =>
      have hp : f.hasSameParams f = true := Res.ok.inj hp
      refine congrArg Res.ok ((V1.hasSameParams_iff g g').2 ?_)
      have := ((V1.hasSameParams_iff f f).1 hp).2.2.1
      exact ⟨((plain_v1 g).1 ha).trans ((plain_v1 g').1 hb).symm, a.1.trans b.1.symm,
        by rw [a.2, b.2]; exact this, a.3.trans b.3.symm, a.4.trans b.4.symm, a.6.trans b.6.symm⟩
  | v2 f =>
    cases g with
    | v1 g => exact a.elim
    | v2 g =>
    cases g' with
    | v1 g' => exact b.elim
    | v2 g' =>
      have hp : f.hasSameParams f = true := Res.ok.inj hp
      refine congrArg Res.ok ((V2.hasSameParams_iff g g').2 ?_)
      have := ((V2.hasSameParams_iff f f).1 hp).2.2.2.1
      have hfl : g.flags = g'.flags := by
        have h1 := (V2.Reach.inv ra).2.1
        have h2 := (V2.Reach.inv rb).2.1
        have h3 := (plain_v2 g).1 ha
        have h4 := (plain_v2 g').1 hb
        have h5 := a.3.trans b.3.symm
        cases hx : g.flags
        cases hy : g'.flags
        simp_all
      exact ⟨hfl, a.1.trans b.1.symm, a.7.trans b.7.symm, by rw [a.2, b.2]; exact this,
        a.4.trans b.4.symm, a.6.trans b.6.symm⟩

end Bloom

/-- What is known about a filter. -/
def Thing.Is (env : Env) (v : U8) (cap : U64) (fpp : F64) (opt : U8) (es : List (List U8)) :
    Thing → Prop
  | .file w path => ∃ l f g, OptLevel.tryFrom opt = .ok l ∧
      Bloom.withVersionCapacityOpt env v cap fpp l = .ok f ∧ g.Reach env ∧
      w.fs path = some g.file ∧ f.Given env es g
  | .object g => ∃ l f, OptLevel.tryFrom opt = .ok l ∧
      Bloom.withVersionCapacityOpt env v cap fpp l = .ok f ∧ g.Reach env ∧ g.Plain ∧ f.Given env es g

theorem Py.withParams_made {env : Env} {v : U8} {cap : U64} {fpp : F64} {opt : U8} {f : Bloom}
    (h : Py.withParams env v cap fpp opt = .ok f) : ∃ l, OptLevel.tryFrom opt = .ok l ∧
      Bloom.withVersionCapacityOpt env v cap fpp l = .ok f := by
  unfold Py.withParams at h
  cases ho : OptLevel.tryFrom opt with
  | ok l => rw [ho] at h; exact ⟨l, rfl, Py.ofRes_ok.1 h⟩
  | err e => rw [ho] at h; cases h
  | panic => rw [ho] at h; cases h

theorem Thing.Has.is {t : Libs} {env : Env} (hs : env.Small) {v : U8} {cap : U64} {fpp : F64}
    {opt : U8} {T : Thing} {es : List (List U8)} (h : T.Has t env v cap fpp opt es) :
    T.Is env v cap fpp opt es := by
  have ins : ∀ {f g : Bloom} {k : List U8} {b : Bool} {es : List (List U8)},
      Thing.Is env v cap fpp opt es (.object f) → f.insertBytes env k = (g, .ok b) →
      Thing.Is env v cap fpp opt (es ++ [k]) (.object g) := by
    rintro f g k b es ⟨l, f0, h1, h2, h3, h4, h5⟩ h
    obtain rfl : (f.insertBytes env k).1 = g := by rw [h]
    refine ⟨l, f0, h1, h2, h3.insert k, h4.insert k, h5.trans ?_⟩
    have hk : f.AllOk env [k] := ⟨⟨b, by rw [h]⟩, trivial⟩
    exact Bloom.Given.inserts hs h3 hk
  induction h with
  | create h => exact h.given hs
  | insert _ h ih =>
    obtain ⟨l, f, g, h1, h2, h3, h4, h5⟩ := ih
    obtain ⟨f', g', k1, k2, k3, k4⟩ := h.given hs h4
    obtain rfl := Res.ok.inj ((Bloom.reload_canon hs h3).symm.trans k1)
    have := (h5.trans (.canon env g)).trans k4
    rw [List.append_nil] at this
    exact ⟨l, f, g', h1, h2, k2, k3, this⟩
  | other _ h ih =>
    obtain ⟨l, f, g, h1, h2, h3, h4, h5⟩ := ih
    exact ⟨l, f, g, h1, h2, h3, by rw [h, h4], h5⟩
  | @save file f w w' es _ hd h ih =>
    obtain ⟨l, f0, h1, h2, h3, h4, h5⟩ := ih
    refine ⟨l, f0, f, h1, h2, h3, ?_, h5⟩
    rcases Py.save_fs (f := f) (p := file) hd with ⟨-, k⟩ | ⟨k, -⟩
    · exact absurd (by rw [h]) (k ())
    · rwa [h] at k
  | new h =>
    obtain ⟨l, h1, h2⟩ := Py.withParams_made h
    exact ⟨l, _, h1, h2, (Bloom.new_spec hs h2).1, Bloom.plain_new hs h2, .refl env _⟩
  | load _ h ih =>
    obtain ⟨l, f, g, h1, h2, h3, h4, h5⟩ := ih
    obtain ⟨bs, k1, k2⟩ := Py.load_stored h
    rw [h4] at k1
    obtain rfl := Option.some.inj k1
    obtain rfl := Res.ok.inj ((Bloom.reload_canon hs h3).symm.trans k2)
    have := h5.trans (.canon env g)
    rw [List.append_nil] at this
    exact ⟨l, f, h1, h2, .load k2, Bloom.plain_canon g, this⟩
  | @loads f g bs es _ hd h ih =>
    obtain ⟨l, f0, h1, h2, h3, h4, h5⟩ := ih
    rw [Py.dumps_eq] at hd
    cases hd
    have k2 := Py.ofRes_ok.1 h
    obtain rfl := Res.ok.inj ((Bloom.reload_canon hs h3).symm.trans k2)
    have := h5.trans (.canon env f)
    rw [List.append_nil] at this
    exact ⟨l, f0, h1, h2, .load k2, Bloom.plain_canon f, this⟩
  | @insertBytes f g k b es _ h ih =>
    refine ins ih (b := b) ?_
    unfold Py.insertBytes at h
    simp only [Prod.mk.injEq] at h
    exact Prod.ext h.1 (Py.ofRes_ok.1 h.2)
  | @insertStr f g s b es _ h ih =>
    refine ins ih (b := b) ?_
    unfold Py.insertStr at h
    simp only [Prod.mk.injEq] at h
    exact Prod.ext h.1 (Py.ofRes_ok.1 h.2)
  | @union f o g es es' _ _ h ih ih' =>
    obtain ⟨l, f0, h1, h2, h3, h4, h5⟩ := ih
    obtain ⟨l', f0', k1, k2, k3, k4, k5⟩ := ih'
    obtain rfl := Res.ok.inj (h1.symm.trans k1)
    obtain rfl := Res.ok.inj (h2.symm.trans k2)
    have hu : f.unionMerge env o = (g, .ok ()) := by
      unfold Py.unionMerge at h
      simp only [Prod.mk.injEq] at h
      exact Prod.ext h.1 (Py.ofRes_ok.1 h.2)
    refine ⟨l, f0, h1, h2, ?_, h4.union hu, h5.union k5 hu⟩
    have := Bloom.union_reach h3 o
    rwa [hu] at this

end Poppy
