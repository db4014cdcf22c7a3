import Verif.OverlapSpec
import Verif.Lemmas.FileBits
import Verif.Lemmas.RefineBloom
import Verif.Lemmas.Sessions
import Verif.Props.Cli

/-! Lemmas about runs that overlap. -/

namespace Abs

open Poppy (U8)
open Spec

/-- Bits that are set stay set. -/
def Le (a b : Bool) : Prop := a = true → b = true

theorem Rel2.trans {R S T : Bool → Bool → Prop} (hT : ∀ a b c, R a b → S b c → T a c) {a b c : F2}
    (h : Rel2 R a b) (g : Rel2 S b c) : Rel2 T a c :=
  ⟨g.cap.trans h.cap, g.fpp.trans h.fpp, g.hashes.trans h.hashes, g.buckets.trans h.buckets,
    g.cacheBytes.trans h.cacheBytes,
    fun i hi => hT _ _ _ (h.cache i hi) (g.cache i (by rw [h.cacheBytes]; exact hi)),
    fun j i hj hi => hT _ _ _ (h.bits j i hj hi) (g.bits j i (by rw [h.buckets]; exact hj) hi)⟩

theorem Rel1.trans {R S T : Bool → Bool → Prop} (hT : ∀ a b c, R a b → S b c → T a c) {a b c : F1}
    (h : Rel1 R a b) (g : Rel1 S b c) : Rel1 T a c :=
  ⟨g.cap.trans h.cap, g.fpp.trans h.fpp, g.hashes.trans h.hashes, g.size.trans h.size,
    fun i hi => hT _ _ _ (h.bits i hi) (g.bits i (by rw [h.size]; exact hi))⟩

theorem Rel.trans {R S T : Bool → Bool → Prop} (hT : ∀ a b c, R a b → S b c → T a c) {a b c : F}
    (h : Rel R a b) (g : Rel S b c) : Rel T a c := by
  cases a <;> cases b <;> cases c
  · exact Rel1.trans hT h g
  · exact absurd g id
  · exact absurd h id
  · exact absurd h id
  · exact absurd h id
  · exact absurd h id
  · exact absurd g id
  · exact Rel2.trans hT h g

theorem Rel.le_trans {a b c : F} (h : Rel Le a b) (g : Rel Le b c) : Rel Le a c :=
  Rel.trans (fun _ _ _ x y z => y (x z)) h g

theorem Rel.flip {R : Bool → Bool → Prop} {a b : F} (h : Rel R a b) :
    Rel (fun x y => R y x) b a := by
  cases a <;> cases b
  · exact ⟨h.cap.symm, h.fpp.symm, h.hashes.symm, h.size.symm,
      fun i hi => h.bits i (by rw [← h.size]; exact hi)⟩
  · exact absurd h id
  · exact absurd h id
  · exact ⟨h.cap.symm, h.fpp.symm, h.hashes.symm, h.buckets.symm, h.cacheBytes.symm,
      fun i hi => h.cache i (by rw [← h.cacheBytes]; exact hi),
      fun j i hj hi => h.bits j i (by rw [← h.buckets]; exact hj) hi⟩

theorem Rel.mono {R S : Bool → Bool → Prop} (hS : ∀ {a b}, R a b → S a b) {a b : F}
    (h : Rel R a b) : Rel S a b := by
  cases a <;> cases b
  · exact ⟨h.cap, h.fpp, h.hashes, h.size, fun i hi => hS (h.bits i hi)⟩
  · exact absurd h id
  · exact absurd h id
  · exact ⟨h.cap, h.fpp, h.hashes, h.buckets, h.cacheBytes, fun i hi => hS (h.cache i hi),
      fun j i hj hi => hS (h.bits j i hj hi)⟩

theorem Rel.contains {m : Machine} {a b : F} (h : Rel Le a b) {k : List U8}
    (hk : a.contains m k = .bool true) : b.contains m k = .bool true := by
  cases a <;> cases b
  · rename_i a b
    simp only [F.contains, F1.contains, F1.covered, Answer.bool.injEq, Bool.and_eq_true,
      decide_eq_true_eq] at hk ⊢
    rw [h.size, h.hashes]
    refine ⟨hk.1, fun n hn => h.bits _ ?_ (hk.2 n hn)⟩
    have := Nat.mod_lt (dcsoChain (fnv1 k) (n + 1)) (Nat.pos_of_ne_zero hk.1)
    unfold dcsoProbe
    omega
  · exact absurd h id
  · exact absurd h id
  · rename_i a b
    simp only [F.contains, F2.contains] at hk ⊢
    rw [h.cap, h.cacheBytes, h.buckets]
    split at hk
    · cases hk
    split at hk
    · cases hk
    split at hk
    · cases hk
    rename_i h1 h2 h3
    rw [if_neg h1, if_neg, if_neg h3]
    · simp only [F2.covered, Answer.bool.injEq, decide_eq_true_eq] at hk ⊢
      intro n hn
      rw [h.hashes] at hn
      have hb : b.bucket m.c2 k = a.bucket m.c2 k := by unfold F2.bucket; rw [h.buckets]
      rw [hb]
      exact h.bits _ _ (Nat.mod_lt _ (Nat.pos_of_ne_zero h3)) (Nat.mod_lt _ (by norm_num)) (hk n hn)
    · rintro ⟨c1, c2⟩
      apply h2
      refine ⟨c1, ?_⟩
      have hs : b.slot m.c2 k = a.slot m.c2 k := by unfold F2.slot; rw [h.cacheBytes]
      rw [hs] at c2
      by_contra hne
      have := h.cache (a.slot m.c2 k) (by
        have := @Nat.and_le_right (xorshift (m.c2.h1 k)) (a.cacheBytes * 8 - 1)
        have e : a.slot m.c2 k = xorshift (m.c2.h1 k) &&& (a.cacheBytes * 8 - 1) := rfl
        omega) (by simpa using hne)
      rw [this] at c2
      cases c2

theorem Over.mixed {R : Bool → Bool → Prop} {x bs : List U8} (src : ℕ → List U8)
    (h : ∀ i, Over R x (src i)) (hb : ∀ (i : ℕ) (b : U8), bs[i]? = some b → (src i)[i]? = some b) :
    Over R x bs := by
  intro p hp
  have h1 := hb (p / 8) bs[p / 8] (List.getElem?_eq_getElem hp)
  have h2 := h (p / 8) p (List.getElem?_eq_some_iff.1 h1).1
  have e : bitAt bs p = bitAt (src (p / 8)) p := by
    unfold bitAt
    rw [List.getD_eq_getElem?_getD, List.getD_eq_getElem?_getD, h1, List.getElem?_eq_getElem hp]
  rw [e]
  exact h2

end Abs

namespace Poppy

open Spec Cli Abs

namespace Bloom

variable {env : Env}

theorem loaded_ok {x : Load (File1 ⊕ File2)} {A : Abs.F} (h : loaded x = .ok A) :
    ∃ X, x = .ok X := by
  cases x <;> first | exact ⟨_, rfl⟩ | cases h

/-- The file of a filter holds that filter. -/
theorem load_file (hs : env.Small) {f : Bloom} (hf : f.Reach env) :
    ∃ X A, load env.allocLimit f.file = .ok X ∧ loaded (.ok X) = .ok A ∧ Rel Eq f.view A := by
  have key : ∀ g : Bloom, Bloom.fromReader env (Reader.ofBytes f.file) = .ok g →
      Rel Eq f.view g.view →
      ∃ X A, load env.allocLimit f.file = .ok X ∧ loaded (.ok X) = .ok A ∧ Rel Eq f.view A := by
    intro g hg hr
    have hl := view_load hs f.file
    rw [hg] at hl
    obtain ⟨X, hX⟩ := loaded_ok hl
    rw [hX] at hl
    exact ⟨X, _, hX, hl, hr⟩
  cases f with
  | v1 f =>
    obtain ⟨g, hg, rfl, _⟩ := C22_v1_round_trip env f hf
    exact key (.v1 _) (((C51_readers env f.file).1 _).2 hg)
      ⟨rfl, rfl, rfl, rfl, fun _ _ => rfl⟩
  | v2 f =>
    obtain ⟨g, hg, rfl, _⟩ := C22_v2_round_trip env hs f hf
    exact key (.v2 _) (((C51_readers env f.file).2 _).2 hg)
      ⟨rfl, rfl, rfl, rfl, rfl, fun _ _ => rfl, fun _ _ _ _ => rfl⟩

theorem leVal_le8 (n : ℕ) : leVal (le 8 n) = n % 2 ^ 64 := by
  simp [leVal, le, List.range_succ]
  omega

/-- The size of the index cache is stated in whole bytes. -/
theorem file_mod {f : Bloom} (hf : f.Reach env) (h : f.file.getD 0 0 = 2#8) :
    num f.file 40 % 8 = 0 := by
  rw [← view_file hf] at h ⊢
  cases f with
  | v1 f => simp [Bloom.view, F.file, F1.file, v1Bytes] at h
  | v2 f =>
    have : ∀ (a b : List U8), a.length = 40 → ∀ n, num (a ++ (le 8 n ++ b)) 40 = n % 2 ^ 64 := by
      intro a b ha n
      unfold num
      rw [List.drop_append_of_le_length (by omega), List.drop_eq_nil_of_le (by omega), List.nil_append,
        List.take_append_of_le_length (by simp [le]), List.take_of_length_le (by simp [le]), leVal_le8]
    have e := this ([2, BitVec.ofNat 8 (Abs.level f.view.flags.opt), 0, 0, 0, 0, 0, 0] ++
      le 8 f.view.cap ++ le 8 f.view.fpp.toNat ++ le 8 f.view.hashes ++ le 8 f.view.count)
    simp only [Bloom.view, F.file, F2.file, v2Bytes, List.append_assoc] at e ⊢
    rw [e _ (by simp [le])]
    omega

theorem rel_inserts (f : Bloom) (ks : List (List U8)) :
    Rel Le f.view (f.inserts env ks).view := by
  cases f with
  | v1 f =>
    rw [Bloom.inserts_v1]
    have e := V1.inserts_ext env f ks
    exact ⟨congrArg BitVec.toNat e.capacity, e.fpp, congrArg BitVec.toNat e.nHash, congrArg BitVec.toNat e.bitSize,
      fun i _ => e.bits i⟩
  | v2 f =>
    rw [Bloom.inserts_v2]
    have e := V2.inserts_ext env f (ks.map Key.slice)
    exact ⟨congrArg BitVec.toNat e.capacity, e.fpp, congrArg BitVec.toNat e.nHash, e.blen, e.clen, fun i _ => e.cache i,
      fun j i _ _ => e.bits j i⟩

theorem rel_parallel (hs : env.Small) {w : World} {s : Schedule} {f g : Bloom}
    (hf : f.Reach env) {files : List Path} {jobs : ℕ}
    (h : parallelInsert env w s f files jobs = some (.ok g)) : Rel Le f.view g.view := by
  cases f with
  | v1 f =>
    obtain ⟨_, g', _, rfl, e1, e2, _, e4, e5, _, _, e8⟩ := C54_v1_bits hs hf h
    exact ⟨congrArg BitVec.toNat e1, e2, congrArg BitVec.toNat e4, congrArg BitVec.toNat e5, fun i _ hi => (e8 i).2 (Or.inl hi)⟩
  | v2 f =>
    obtain ⟨_, g', _, rfl, e1, e2, _, e4, _, e6, e7, e8, e9⟩ := C54_v2_bits hf h
    exact ⟨congrArg BitVec.toNat e1, e2, congrArg BitVec.toNat e4, e6, e7, fun i _ hi => (e9 i).2 (Or.inl hi),
      fun j i _ _ hi => (e8 j i).2 (Or.inl hi)⟩

theorem rel_contains (hs : env.Small) {f g : Bloom} (hf : f.Reach env) (hg : g.Reach env)
    (h : Rel Le f.view g.view) {k : List U8} (hk : f.containsBytes env k = .ok true) :
    g.containsBytes env k = .ok true := by
  have h1 := view_contains hs hf k
  have h2 := view_contains hs hg k
  rw [hk] at h1
  rw [h.contains h1] at h2
  cases hc : g.containsBytes env k with
  | ok b => rw [hc] at h2; cases h2; rfl
  | err e => rw [hc] at h2; cases h2
  | panic => rw [hc] at h2; cases h2

/-- What the bytes hold, if they can be loaded. -/
theorem over_load (hs : env.Small) {R : Bool → Bool → Prop} {f g : Bloom} (hf : f.Reach env)
    {bs : List U8} (ho : Over R f.file bs) (hg : Bloom.fromReader env (Reader.ofBytes bs) = .ok g) :
    Rel R f.view g.view := by
  obtain ⟨X, A, hX, hA, hr⟩ := load_file hs hf
  have hl := view_load hs bs
  rw [hg] at hl
  obtain ⟨B, hB⟩ := loaded_ok hl
  have := rel_of_over hX hB hA (by rw [← hB]; exact hl) ho
  exact Rel.trans (fun _ _ _ h g => h ▸ g) hr this

theorem over_file (hs : env.Small) {R : Bool → Bool → Prop} {f g : Bloom} (hf : f.Reach env)
    (hg : g.Reach env) (h : Rel R f.view g.view) : Over R f.file g.file := by
  obtain ⟨X, A, hX, hA, hr⟩ := load_file hs hf
  obtain ⟨Y, B, hY, hB, hq⟩ := load_file hs hg
  refine over_of_rel hX hY hA hB ?_ (file_mod hf) (file_mod hg)
  exact Rel.trans (fun _ _ _ h g => by rw [← h]; exact g) hr.flip
    (Rel.trans (fun _ _ _ h g => g ▸ h) h hq : Rel R f.view B)

end Bloom

namespace Cli

theorem content_over {env : Env} (hs : env.Small) {f : Bloom} (hf : f.Reach env) {bs : List U8}
    (h : Content env f.file bs) : Over Le f.file bs := by
  induction h with
  | old => exact fun p _ => ⟨fun _ => rfl, fun _ h => h⟩
  | mixed src _ hb ih => exact Over.mixed src ih hb
  | @inserted w s stdin o jobs bs out _ h1 h2 ih =>
    rcases insert_cases env w s stdin o jobs with ⟨e, _⟩ | ⟨bs', b, b', bf, a1, a2, a3, a4, _, a5⟩
    · rw [e, h1] at h2
      cases h2
      exact ih
    · have e := open_ok a1
      rw [h1] at e
      cases e
      have hb : b.Reach env := .load a2
      have hb' : b'.Reach env ∧ Rel Le b.view b'.view := by
        split at a3
        · obtain ⟨es, _, _, rfl⟩ := insertLines_ok a3
          exact ⟨hb.inserts es, Bloom.rel_inserts b es⟩
        · cases a3
          exact ⟨hb, by cases b with
            | v1 _ => exact ⟨rfl, rfl, rfl, rfl, fun _ _ h => h⟩
            | v2 _ => exact ⟨rfl, rfl, rfl, rfl, rfl, fun _ _ h => h, fun _ _ _ _ h => h⟩⟩
      have hbf : bf.Reach env := insertFiles_reach hb'.1 (parallelInsert_some a4).symm
      have r := ((Bloom.over_load hs hf ih a2).le_trans hb'.2).le_trans
        (Bloom.rel_parallel hs hb'.1 a4)
      have ho := Bloom.over_file hs hf hbf r
      rw [a5] at h2
      have h2 : some (bf.write ⟨[], w.disk⟩).1.out = some out := by
        simpa [World.written] using h2
      rw [Option.some.injEq, written_out] at h2
      subst h2
      cases w.disk with
      | none => exact ho
      | some k =>
        refine Over.mixed (fun _ => bf.file) (fun _ => ho) fun i b hb => ?_
        simp only [List.getElem?_take] at hb
        split at hb
        · exact hb
        · cases hb

/-! ## Operations on a file -/

theorem act_put_length (c : List U8) (o : ℕ) (bs : List U8) :
    (FileOp.act c (.put o bs)).length = max c.length (o + bs.length) := by
  simp only [FileOp.act, List.length_append, List.length_take, List.length_replicate,
    List.length_drop]
  omega

theorem act_put_in (c : List U8) (o : ℕ) (bs : List U8) {i : ℕ} (h1 : o ≤ i)
    (h2 : i < o + bs.length) : (FileOp.act c (.put o bs))[i]? = bs[i - o]? := by
  have hl : ((c ++ List.replicate (o - c.length) 0#8).take o).length = o := by
    simp only [List.length_append, List.length_take, List.length_replicate]
    omega
  simp only [FileOp.act]
  rw [List.append_assoc, List.getElem?_append_right (by omega), hl,
    List.getElem?_append_left (by omega)]

theorem act_put_out (c : List U8) (o : ℕ) (bs : List U8) {i : ℕ} (h : i < c.length)
    (h2 : ¬ (o ≤ i ∧ i < o + bs.length)) : (FileOp.act c (.put o bs))[i]? = c[i]? := by
  have hl : ((c ++ List.replicate (o - c.length) 0#8).take o).length = o := by
    simp only [List.length_append, List.length_take, List.length_replicate]
    omega
  simp only [FileOp.act]
  by_cases h1 : i < o
  · rw [List.append_assoc, List.getElem?_append_left (by omega), List.getElem?_take_of_lt h1,
      List.getElem?_append_left h]
  · rw [List.append_assoc, List.getElem?_append_right (by omega), hl,
      List.getElem?_append_right (by omega), List.getElem?_drop]
    congr 1
    omega

theorem act_put_end (c bs : List U8) : FileOp.act c (.put c.length bs) = c ++ bs := by
  simp [FileOp.act]

theorem after_puts (c : List U8) (ps : List (List U8)) (n : ℕ) :
    after c ((puts c.length ps).take n) = c ++ (ps.take n).flatten := by
  induction ps generalizing c n with
  | nil => simp [puts, after]
  | cons p ps ih =>
    cases n with
    | zero => simp [after]
    | succ n =>
      have := ih (c ++ p) n
      rw [List.length_append] at this
      simp only [puts, List.take_succ_cons, after, List.foldl_cons, act_put_end] at this ⊢
      rw [this]
      simp

/-- While a single run saves, the file holds what it held or a beginning of the new content. -/
theorem moment_saving {old c : List U8} {ps : List (List U8)} (h : Moment old (saving ps) c) :
    c = old ∨ c <+: ps.flatten := by
  obtain ⟨n, rfl⟩ := h
  cases n with
  | zero => exact Or.inl rfl
  | succ n =>
    right
    have := after_puts [] ps n
    simp only [List.length_nil, List.nil_append] at this
    show after [] ((puts 0 ps).take n) <+: _
    rw [this]
    refine ⟨(ps.drop n).flatten, ?_⟩
    rw [← List.flatten_append, List.take_append_drop]

theorem mem_puts {o : ℕ} {ps : List (List U8)} {x : FileOp} (h : x ∈ puts o ps) :
    ∃ o' bs, x = .put o' bs ∧ o ≤ o' ∧ o' + bs.length ≤ o + ps.flatten.length ∧
      ∀ j b, bs[j]? = some b → ps.flatten[o' - o + j]? = some b := by
  induction ps generalizing o with
  | nil => simp [puts] at h
  | cons p ps ih =>
    simp only [puts, List.mem_cons] at h
    rcases h with rfl | h
    · refine ⟨o, p, rfl, le_refl _, by simp, fun j b hb => ?_⟩
      have hj := (List.getElem?_eq_some_iff.1 hb).1
      rw [Nat.sub_self, Nat.zero_add, List.flatten_cons, List.getElem?_append_left hj, hb]
    · obtain ⟨o', bs, rfl, h1, h2, h3⟩ := ih h
      refine ⟨o', bs, rfl, by omega, by simp only [List.flatten_cons, List.length_append]; omega,
        fun j b hb => ?_⟩
      rw [List.flatten_cons, List.getElem?_append_right (by omega), ← h3 j b hb]
      congr 1
      omega

theorem empty_not_mem_puts {o : ℕ} {ps : List (List U8)} : FileOp.empty ∉ puts o ps := by
  intro h
  obtain ⟨o', bs, e, _⟩ := mem_puts h
  cases e

/-- From the moment the last of the processes emptied the file. -/
theorem after_last {good : ℕ → U8 → Prop} {L q : ℕ} :
    ∀ (post : List (ℕ × FileOp)) (o : ℕ) (ps : List (List U8)) (c : List U8),
      (∀ x ∈ post, ∃ o bs, x.2 = .put o bs ∧ o + bs.length ≤ L ∧
        ∀ j b, bs[j]? = some b → good (o + j) b) →
      (post.filter fun x => x.1 = q).map Prod.snd = puts o ps → o + ps.flatten.length = L →
      c.length ≤ L → o ≤ c.length → (∀ i b, i < o → c[i]? = some b → good i b) →
      (after c (post.map Prod.snd)).length = L ∧
        ∀ i b, (after c (post.map Prod.snd))[i]? = some b → good i b := by
  intro post
  induction post with
  | nil =>
    intro o ps c _ hf hL h1 h2 hg
    cases ps with
    | cons p ps => simp [puts] at hf
    | nil =>
      simp only [List.flatten_nil, List.length_nil, Nat.add_zero] at hL
      refine ⟨by simp only [after, List.map_nil, List.foldl_nil]; omega, fun i b hb => ?_⟩
      have hb : c[i]? = some b := hb
      have := (List.getElem?_eq_some_iff.1 hb).1
      exact hg i b (by omega) hb
  | cons x post ih =>
    intro o ps c hall hf hL h1 h2 hg
    obtain ⟨o', bs, hx, hl, hb⟩ := hall x (List.mem_cons_self ..)
    obtain ⟨p, y⟩ := x
    simp only at hx
    subst hx
    have hg' : ∀ n ≤ c.length, (∀ i b, i < n → c[i]? = some b → good i b) →
        ∀ i b, i < n → (FileOp.act c (.put o' bs))[i]? = some b → good i b := by
      intro n hn hg i b hi hib
      by_cases hin : o' ≤ i ∧ i < o' + bs.length
      · rw [act_put_in c o' bs hin.1 hin.2] at hib
        have := hb _ _ hib
        rwa [show o' + (i - o') = i by omega] at this
      · rw [act_put_out c o' bs (by omega) hin] at hib
        exact hg i b hi hib
    have hlen := act_put_length c o' bs
    have step := ih
    by_cases hp : p = q
    · rw [List.filter_cons_of_pos (by simpa using hp), List.map_cons] at hf
      cases ps with
      | nil => simp [puts] at hf
      | cons p' ps =>
        simp only [puts, List.cons.injEq, FileOp.put.injEq] at hf
        obtain ⟨⟨rfl, rfl⟩, hf⟩ := hf
        simp only [List.flatten_cons, List.length_append] at hL
        refine ih (o' + bs.length) ps (FileOp.act c (.put o' bs))
          (fun x hx => hall x (List.mem_cons_of_mem _ hx)) hf (by omega) (by omega) (by omega) ?_
        intro i b hi hib
        by_cases hio : i < o'
        · exact hg' o' h2 hg i b hio hib
        · rw [act_put_in c o' bs (by omega) hi] at hib
          have := hb _ _ hib
          rwa [show o' + (i - o') = i by omega] at this
    · rw [List.filter_cons_of_neg (by simpa using hp)] at hf
      exact ih o ps (FileOp.act c (.put o' bs)) (fun x hx => hall x (List.mem_cons_of_mem _ hx)) hf
        hL (by omega) (by omega) (hg' o h2 hg)

/-- The last operation of a kind. -/
theorem split_last {ops : List (ℕ × FileOp)} (h : ∃ x ∈ ops, x.2 = .empty) :
    ∃ pre q post, ops = pre ++ (q, .empty) :: post ∧ ∀ x ∈ post, x.2 ≠ .empty := by
  induction ops with
  | nil => simp at h
  | cons x ops ih =>
    by_cases h' : ∃ x ∈ ops, x.2 = .empty
    · obtain ⟨pre, q, post, rfl, hp⟩ := ih h'
      exact ⟨x :: pre, q, post, rfl, hp⟩
    · obtain ⟨y, hy, he⟩ := h
      rcases List.mem_cons.1 hy with rfl | hy
      · obtain ⟨q, y⟩ := y
        simp only at he
        subst he
        exact ⟨[], q, ops, rfl, fun x hx hxe => h' ⟨x, hx, hxe⟩⟩
      · exact absurd ⟨y, hy, he⟩ h'

/-- When all of several processes have saved, each byte is that of one of them. -/
theorem interleaved_saving {n L : ℕ} (hn : 0 < n) {pieces : ℕ → List (List U8)}
    (hl : ∀ p < n, (pieces p).flatten.length = L) {ops : List (ℕ × FileOp)}
    (h : Interleaves (fun p => if p < n then saving (pieces p) else []) ops) (c : List U8) :
    (after c (ops.map Prod.snd)).length = L ∧ ∀ (i : ℕ) (b : U8), (after c (ops.map Prod.snd))[i]? = some b →
      ∃ p < n, (pieces p).flatten[i]? = some b := by
  have hmem : ∀ x ∈ ops, x.1 < n ∧ x.2 ∈ saving (pieces x.1) := by
    intro x hx
    have : x.2 ∈ (ops.filter fun y => y.1 = x.1).map Prod.snd :=
      List.mem_map_of_mem (List.mem_filter.2 ⟨hx, by simp⟩)
    rw [h x.1] at this
    beta_reduce at this
    split at this
    · exact ⟨by assumption, this⟩
    · simp at this
  have hex : ∃ x ∈ ops, x.2 = .empty := by
    have := h 0
    simp only [hn, if_true] at this
    have hm : FileOp.empty ∈ (ops.filter fun y => y.1 = 0).map Prod.snd := by
      rw [this]; simp [saving]
    obtain ⟨x, hx, he⟩ := List.mem_map.1 hm
    exact ⟨x, (List.mem_filter.1 hx).1, he⟩
  obtain ⟨pre, q, post, rfl, hpost⟩ := split_last hex
  have hq : q < n := (hmem (q, .empty) (by simp)).1
  have hfq := h q
  simp only [hq, if_true, List.filter_append, List.map_append] at hfq
  rw [List.filter_cons_of_pos (by simp), List.map_cons] at hfq
  have hpre : (pre.filter fun x => x.1 = q).map Prod.snd = [] := by
    cases hc : (pre.filter fun x => x.1 = q).map Prod.snd with
    | nil => rfl
    | cons y ys =>
      rw [hc, List.cons_append, saving, List.cons.injEq] at hfq
      have : FileOp.empty ∈ puts 0 (pieces q) := by rw [← hfq.2]; simp
      exact absurd this empty_not_mem_puts
  rw [hpre, List.nil_append, saving, List.cons.injEq] at hfq
  have e : after c ((pre ++ (q, FileOp.empty) :: post).map Prod.snd)
      = after [] (post.map Prod.snd) := by
    simp only [after, List.map_append, List.map_cons, List.foldl_append, List.foldl_cons,
      FileOp.act]
  rw [e]
  refine after_last (good := fun i b => ∃ p < n, (pieces p).flatten[i]? = some b) post 0 (pieces q)
    [] ?_ hfq.2 (by rw [Nat.zero_add]; exact hl q hq) (by simp) (by simp) (by simp)
  intro x hx
  obtain ⟨h1, h2⟩ := hmem x (by simp [hx])
  simp only [saving, List.mem_cons] at h2
  rcases h2 with h2 | h2
  · exact absurd h2 (hpost x hx)
  · obtain ⟨o', bs, e, _, a2, a3⟩ := mem_puts h2
    refine ⟨o', bs, e, by rw [← hl x.1 h1]; omega, fun j b hb => ⟨x.1, h1, ?_⟩⟩
    have := a3 j b hb
    rwa [Nat.sub_zero] at this

end Cli

end Poppy
