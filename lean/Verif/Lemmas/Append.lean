import Verif.AppendSpec
import Verif.Lemmas.Fill
import Verif.Lemmas.Partial

/-! Lemmas on attached data. -/

namespace Poppy

namespace V1

theorem insertLoop_data (env : Env) (d : List U8) (n : ℕ) (f : V1) (fp : Fingerprint) (new : Bool) :
    insertLoop env n { f with data := d } fp new =
      ({ (insertLoop env n f fp new).1 with data := d }, (insertLoop env n f fp new).2) := by
  induction n generalizing f fp new with
  | zero => rfl
  | succ n ih =>
    unfold insertLoop
    rcases fp.next with ⟨(_ | i) | e | _, fp⟩
    · rfl
    · dsimp only
      split
      · rfl
      · rename_i entry _
        split
        · rfl
        · have h1 : ∀ (x : List U64) (i : U64),
              getNthBit { { f with data := d } with bitset := x } i =
                getNthBit { f with bitset := x } i := fun _ _ => rfl
          rw [h1]
          split
          · rfl
          · exact ih { f with bitset := f.bitset.set (i / 64#64).toNat (entry ||| wordMask i) } _ _
    · rfl
    · rfl

theorem insertBytes_data (env : Env) (d : List U8) (f : V1) (k : List U8) :
    insertBytes env { f with data := d } k =
      ({ (insertBytes env f k).1 with data := d }, (insertBytes env f k).2) := by
  unfold insertBytes
  dsimp only
  split
  · rfl
  · rw [insertLoop_data]
    rcases insertLoop env _ f _ false with ⟨g, r | r | _⟩
    · dsimp only
      split
      · rcases addU64 env.debug g.count 1 with _ | _ | _ <;> rfl
      · rfl
    · rfl
    · rfl

theorem containsLoop_data (d : List U8) (n : ℕ) (f : V1) (fp : Fingerprint) :
    containsLoop n { f with data := d } fp = containsLoop n f fp := by
  induction n generalizing fp with
  | zero => rfl
  | succ n ih =>
    unfold containsLoop
    simp only [ih]
    rfl

theorem containsBytes_data (d : List U8) (f : V1) (k : List U8) :
    containsBytes { f with data := d } k = containsBytes f k := by
  unfold containsBytes
  rw [containsLoop_data]

theorem unionMerge_data (env : Env) (d d' : List U8) (f g : V1) :
    unionMerge env { f with data := d } { g with data := d' } =
      ({ (unionMerge env f g).1 with data := d }, (unionMerge env f g).2) := by
  unfold unionMerge
  have h : hasSameParams { f with data := d } { g with data := d' } = hasSameParams f g := rfl
  rw [h]
  split
  · rfl
  · dsimp only
    rcases orWords f.bitset g.bitset with _ | _ | _ <;> rfl

end V1

namespace V2

theorem insertFinish_data (env : Env) (d : List U8) (f : V2) (h : U64) (new : Bool) :
    insertFinish env { f with data := d } h new =
      ({ (insertFinish env f h new).1 with data := d }, (insertFinish env f h new).2) := by
  unfold insertFinish
  dsimp only
  rcases (if new then addU64 env.debug f.count 1 else .ok f.count) with c | e | _
  · dsimp only
    split
    · rcases f.indexCache.setNthBit _ with ⟨_, _ | _ | _⟩ <;> rfl
    · rfl
  · rfl
  · rfl

theorem insertIter_data (env : Env) (d : List U8) (f : V2) (it : IndexIterator) :
    insertIter env { f with data := d } it =
      ({ (insertIter env f it).1 with data := d }, (insertIter env f it).2) := by
  unfold insertIter
  split
  · rfl
  · dsimp only
    split
    · rfl
    · have h : ∀ x, ibucket { f with data := d } x = ibucket f x := fun _ => rfl
      rw [h]
      rcases ibucket f _ with ib | _ | _
      · dsimp only
        split
        · rfl
        · split
          · rename_i bucket' new _
            exact insertFinish_data env d { f with buckets := f.buckets.set ib.toNat bucket' } _ _
          · rfl
          · rfl
      · rfl
      · rfl

theorem insert_data (env : Env) (d : List U8) (f : V2) (k : Key) :
    insert env { f with data := d } k =
      ({ (insert env f k).1 with data := d }, (insert env f k).2) := insertIter_data _ _ _ _

theorem contains_data (env : Env) (d : List U8) (f : V2) (k : Key) :
    contains env { f with data := d } k = contains env f k := rfl

theorem updateCount_data (env : Env) (d : List U8) (f : V2) :
    updateCount env { f with data := d } =
      ({ (updateCount env f).1 with data := d }, (updateCount env f).2) := by
  unfold updateCount
  dsimp only
  rcases sumU64 env.debug _ with _ | _ | _ <;> rfl

theorem unionMerge_data (env : Env) (d d' : List U8) (f g : V2) :
    unionMerge env { f with data := d } { g with data := d' } =
      ({ (unionMerge env f g).1 with data := d }, (unionMerge env f g).2) := by
  unfold unionMerge
  have h : hasSameParams { f with data := d } { g with data := d' } = hasSameParams f g := rfl
  rw [h]
  split
  · rfl
  · dsimp only
    rcases f.indexCache.union g.indexCache with ⟨ic, _ | _ | _⟩
    · exact updateCount_data env d { f with
        indexCache := ic
        buckets := List.zipWith BitSet.union f.buckets g.buckets }
    · rfl
    · rfl

theorem intersectionMerge_data (env : Env) (d d' : List U8) (f g : V2) :
    intersectionMerge env { f with data := d } { g with data := d' } =
      ({ (intersectionMerge env f g).1 with data := d }, (intersectionMerge env f g).2) := by
  unfold intersectionMerge
  have h : hasSameParams { f with data := d } { g with data := d' } = hasSameParams f g := rfl
  rw [h]
  split
  · rfl
  · dsimp only
    rcases f.indexCache.intersection g.indexCache with ⟨ic, _ | _ | _⟩
    · exact updateCount_data env d { f with
        indexCache := ic
        buckets := List.zipWith BitSet.intersection f.buckets g.buckets }
    · rfl
    · rfl

end V2

namespace Bloom

variable {env : Env}

theorem insertBytes_data (env : Env) (d : List U8) (f : Bloom) (k : List U8) :
    insertBytes env (f.setData d) k =
      ((insertBytes env f k).1.setData d, (insertBytes env f k).2) := by
  cases f with
  | v1 f => simp only [setData, insertBytes, V1.insertBytes_data]
  | v2 f => simp only [setData, insertBytes, V2.insertBytes, V2.insert_data]

theorem containsBytes_data (env : Env) (d : List U8) (f : Bloom) (k : List U8) :
    containsBytes env (f.setData d) k = containsBytes env f k := by
  cases f with
  | v1 f => exact V1.containsBytes_data d f k
  | v2 f => rfl

theorem hasSameParams_data (d d' : List U8) (f g : Bloom) :
    hasSameParams (f.setData d) (g.setData d') = hasSameParams f g := by
  cases f <;> cases g <;> rfl

theorem unionMerge_data (env : Env) (d d' : List U8) (f g : Bloom) :
    unionMerge env (f.setData d) (g.setData d') =
      ((unionMerge env f g).1.setData d, (unionMerge env f g).2) := by
  unfold unionMerge
  rw [hasSameParams_data]
  rcases hasSameParams f g with (_ | _) | _ | _
  · rfl
  · cases f <;> cases g <;> simp only [setData, V1.unionMerge_data, V2.unionMerge_data]
  · rfl
  · rfl

theorem countCommonEntries_data (env : Env) (d d' : List U8) (f g : Bloom) :
    countCommonEntries env (f.setData d) (g.setData d') = countCommonEntries env f g := by
  unfold countCommonEntries
  rw [hasSameParams_data]
  rcases hasSameParams f g with (_ | _) | _ | _
  · rfl
  · cases f <;> cases g <;> rfl
  · rfl
  · rfl

theorem fill_data (env : Env) (d : List U8) (f : Bloom) (ks : List (List U8)) :
    fill env (f.setData d) ks = ((fill env f ks).1.setData d, (fill env f ks).2) := by
  induction ks generalizing f with
  | nil => rfl
  | cons k ks ih =>
    unfold fill
    rw [insertBytes_data]
    rcases insertBytes env f k with ⟨g, r | r | _⟩
    · exact ih g
    · rfl
    · rfl

theorem setData_self (f : Bloom) : f.setData f.data = f := by cases f <;> rfl

theorem data_setData (d : List U8) (f : Bloom) : (f.setData d).data = d := by cases f <;> rfl

theorem setData_setData (d d' : List U8) (f : Bloom) : (f.setData d).setData d' = f.setData d' := by
  cases f <;> rfl

theorem insertBytes_keeps (env : Env) (f : Bloom) (k : List U8) :
    (insertBytes env f k).1.data = f.data := by
  have h := insertBytes_data env f.data f k
  rw [setData_self] at h
  have h1 := congrArg (fun x => x.1.data) h
  simpa only [data_setData] using h1

theorem unionMerge_keeps (env : Env) (f g : Bloom) : (unionMerge env f g).1.data = f.data := by
  have h := unionMerge_data env f.data g.data f g
  rw [setData_self, setData_self] at h
  have h1 := congrArg (fun x => x.1.data) h
  simpa only [data_setData] using h1

theorem insertBytes_extend (env : Env) (d : List U8) (f : Bloom) (k : List U8) :
    insertBytes env (f.extend d) k =
      ((insertBytes env f k).1.extend d, (insertBytes env f k).2) := by
  unfold extend
  rw [insertBytes_data, insertBytes_keeps]

theorem unionMerge_extend (env : Env) (d d' : List U8) (f g : Bloom) :
    unionMerge env (f.extend d) (g.extend d') =
      ((unionMerge env f g).1.extend d, (unionMerge env f g).2) := by
  unfold extend
  rw [unionMerge_data, unionMerge_keeps]

theorem containsBytes_extend (env : Env) (d : List U8) (f : Bloom) (k : List U8) :
    containsBytes env (f.extend d) k = containsBytes env f k := containsBytes_data env _ f k

theorem file_setData (d : List U8) (f : Bloom) : ∃ h, f.file = h ++ f.data ∧
    (f.setData d).file = h ++ d := by
  rw [file_eq, file_eq]
  cases f with
  | v1 f =>
    simp only [ser, setData, V1.ser, V1.chunks, data, List.flatten_append, List.flatten_singleton]
    exact ⟨_, rfl, rfl⟩
  | v2 f =>
    simp only [ser, setData, V2.ser, V2.chunks, data, List.flatten_append, List.flatten_singleton]
    exact ⟨_, rfl, rfl⟩

theorem file_extend (d : List U8) (f : Bloom) : (f.extend d).file = f.file ++ d := by
  obtain ⟨h, h1, h2⟩ := file_setData (f.data ++ d) f
  unfold extend
  rw [h1, h2, List.append_assoc]

theorem load_extend {bs : List U8} {f : Bloom} (h : fromReader env (Reader.ofBytes bs) = .ok f)
    (d : List U8) : fromReader env (Reader.ofBytes (bs ++ d)) = .ok (f.extend d) := by
  rcases fromReader_prefix env bs d with ⟨e, h1⟩ | ⟨g, h1, h2⟩ | ⟨h1, -⟩
  · rw [h1] at h; cases h
  · rw [h1] at h; cases h; exact h2
  · rw [h1] at h; cases h

theorem stripped_extend (d : List U8) (f : Bloom) : (f.extend d).stripped = f.stripped.extend d := by
  cases f <;> rfl

end Bloom

namespace Cli

variable {env : Env} {w : World} {p : Path} {d e : List U8}

theorem open_append {q : Path} (h : q ≠ p) : (w.append p d).open q = w.open q := by
  unfold World.open World.append
  dsimp only
  rw [if_neg h]

/-- The worker with a longer filter. -/
def Worker.extend (e : List U8) : Worker → Worker
  | .running bf ls fs => .running (bf.extend e) ls fs
  | .done (.ok bf) => .done (.ok (bf.extend e))
  | .done r => .done r

/-- The worker does not open the file. -/
def Worker.Avoids (p : Path) : Worker → Prop
  | .running _ _ fs => p ∉ fs
  | .done _ => True

theorem step_avoids {a : Worker} (h : a.Avoids p) : (a.step env w).Avoids p := by
  rcases a with ⟨bf, _ | ⟨l, ls⟩, _ | ⟨f, fs⟩⟩ | r
  · trivial
  · unfold Worker.step
    dsimp only
    split
    · exact fun hm => h (List.mem_cons_of_mem _ hm)
    · trivial
    · trivial
  all_goals first
    | trivial
    | (unfold Worker.step
       dsimp only
       split
       · split
         · exact h
         · trivial
         · trivial
       · trivial
       · trivial)

theorem step_extend {a : Worker} (h : a.Avoids p) :
    (a.extend e).step env (w.append p d) = (a.step env w).extend e := by
  rcases a with ⟨bf, _ | ⟨l, ls⟩, fs⟩ | r | r | _
  · cases fs with
    | nil => rfl
    | cons f fs =>
      have hf : f ≠ p := fun h' => h (h' ▸ List.mem_cons_self ..)
      simp only [Worker.extend, Worker.step, open_append hf]
      rcases w.open f with _ | _ | _ <;> rfl
  · cases l with
    | ok line =>
      simp only [Worker.extend, Worker.step, Bloom.insertBytes_extend]
      rcases bf.insertBytes env line with ⟨g, _ | _ | _⟩ <;> rfl
    | err _ => rfl
    | panic => rfl
  · rfl
  · rfl
  · rfl

theorem modify_map_extend {p : Path} (ws : List Worker) (h : ∀ a ∈ ws, a.Avoids p) (i : ℕ) :
    (ws.map (Worker.extend e)).modify i (Worker.step env (w.append p d)) =
      (ws.modify i (Worker.step env w)).map (Worker.extend e) := by
  induction ws generalizing i with
  | nil => cases i <;> rfl
  | cons a ws ih =>
    rw [List.forall_mem_cons] at h
    cases i with
    | zero =>
      simp only [List.map_cons, List.modify_zero_cons, step_extend h.1]
    | succ i => simp only [List.map_cons, List.modify_succ_cons, ih h.2]

theorem modify_avoids {p : Path} (ws : List Worker) (h : ∀ a ∈ ws, a.Avoids p) (i : ℕ) :
    ∀ a ∈ ws.modify i (Worker.step env w), a.Avoids p := by
  induction ws generalizing i with
  | nil => cases i <;> exact h
  | cons a ws ih =>
    rw [List.forall_mem_cons] at h
    cases i with
    | zero =>
      rw [List.modify_zero_cons, List.forall_mem_cons]
      exact ⟨step_avoids h.1, h.2⟩
    | succ i =>
      rw [List.modify_succ_cons, List.forall_mem_cons]
      exact ⟨h.1, ih h.2 i⟩

theorem runWorkers_extend (s : Schedule) (ws : List Worker) (h : ∀ a ∈ ws, a.Avoids p) :
    runWorkers env (w.append p d) s (ws.map (Worker.extend e)) =
      (runWorkers env w s ws).map (Worker.extend e) := by
  induction s generalizing ws with
  | nil => rfl
  | cons i s ih =>
    unfold runWorkers
    rw [modify_map_extend ws h]
    exact ih _ (modify_avoids ws h i)

theorem joinWorkers_extend (ws : List Worker) :
    joinWorkers (ws.map (Worker.extend e)) =
      (joinWorkers ws).map (Res.map (List.map (Bloom.extend e))) := by
  induction ws with
  | nil => rfl
  | cons a ws ih =>
    rcases a with _ | b | _ | _
    · rfl
    · simp only [List.map_cons, Worker.extend, joinWorkers, ih]
      rcases joinWorkers ws with _ | _ | _ | _ <;> rfl
    · rfl
    · rfl

theorem mergeAll_extend (out : Bloom) (bs : List Bloom) :
    mergeAll env (out.extend e) (bs.map (Bloom.extend e)) =
      (mergeAll env out bs).map (Bloom.extend e) := by
  induction bs generalizing out with
  | nil => rfl
  | cons b bs ih =>
    simp only [List.map_cons, mergeAll, Bloom.unionMerge_extend]
    rcases out.unionMerge env b with ⟨g, _ | _ | _⟩
    · exact ih g
    · rfl
    · rfl

theorem reduce_extend (bs : List Bloom) :
    reduce env (bs.map (Bloom.extend e)) = (reduce env bs).map (Bloom.extend e) := by
  unfold reduce
  rw [← List.map_reverse]
  rcases bs.reverse with _ | ⟨b, bs⟩
  · rfl
  · exact mergeAll_extend b bs

theorem startWorkers_extend (bss : List (List Path)) (bs : List Bloom) :
    startWorkers bss (bs.map (Bloom.extend e)) =
      (startWorkers bss bs).map (List.map (Worker.extend e)) := by
  induction bss generalizing bs with
  | nil => rfl
  | cons b bss ih =>
    unfold startWorkers
    rw [List.getLast?_map]
    rcases bs.getLast? with _ | bf
    · rfl
    · dsimp only [Option.map_some]
      rw [← List.map_dropLast, ih]
      rcases startWorkers bss bs.dropLast with _ | _ | _ <;> rfl

theorem startWorkers_avoids {bss : List (List Path)} {bs : List Bloom} {ws : List Worker}
    (h : startWorkers bss bs = .ok ws) (hp : ∀ b ∈ bss, p ∉ b) : ∀ a ∈ ws, a.Avoids p := by
  induction bss generalizing bs ws with
  | nil => cases h; exact fun _ h => absurd h List.not_mem_nil
  | cons b bss ih =>
    rw [List.forall_mem_cons] at hp
    unfold startWorkers at h
    split at h
    · cases h
    · split at h
      · rename_i ws' h1
        cases h
        rw [List.forall_mem_cons]
        exact ⟨hp.1, ih h1 hp.2⟩
      · rename_i h1
        exact absurd h (h1 ws)

theorem copies_extend (bf : Bloom) (n : ℕ) :
    copies (bf.extend e) n = (copies bf n).map (Bloom.extend e) := by
  simp [copies]

theorem chunksAux_mem {α : Type} {k n : ℕ} {l b : List α} (h : b ∈ chunksAux k n l) {x : α}
    (hx : x ∈ b) : x ∈ l := by
  induction n generalizing l with
  | zero => exact absurd h List.not_mem_nil
  | succ n ih =>
    rcases l with _ | ⟨a, l⟩
    · exact absurd h List.not_mem_nil
    · simp only [chunksAux, List.mem_cons] at h
      rcases h with rfl | h
      · exact List.mem_of_mem_take hx
      · exact List.mem_of_mem_drop (ih h)

theorem batches_mem {α : Type} {l : List α} {jobs : ℕ} {bs : List (List α)}
    (h : batches l jobs = .ok bs) {b : List α} (hb : b ∈ bs) {x : α} (hx : x ∈ b) : x ∈ l := by
  unfold batches chunks at h
  split at h
  · cases h
  · split at h
    · cases h
    · cases h
      exact chunksAux_mem hb hx

theorem parallelInsert_extend (s : Schedule) (bf : Bloom) {files : List Path} (hp : p ∉ files)
    (jobs : ℕ) : parallelInsert env (w.append p d) s (bf.extend e) files jobs =
      (parallelInsert env w s bf files jobs).map (Res.map (Bloom.extend e)) := by
  unfold parallelInsert
  have h1 : optimalJobs (w.append p d) jobs = optimalJobs w jobs := rfl
  rw [h1]
  split
  · rfl
  · rcases hb : batches files (optimalJobs w jobs) with bs | _ | _
    · dsimp only
      rw [copies_extend, startWorkers_extend]
      rcases hw : startWorkers bs (copies bf bs.length) with ws | _ | _
      · have h2 : ∀ a ∈ ws, a.Avoids p := startWorkers_avoids hw fun b h3 h4 =>
          hp (batches_mem hb h3 h4)
        simp only [Res.map]
        rw [runWorkers_extend s ws h2, joinWorkers_extend]
        rcases joinWorkers (runWorkers env w s ws) with _ | _ | _ | _
        · rfl
        · simp only [Option.map_some, Res.map]
          rw [reduce_extend]
          rfl
        · rfl
        · rfl
      · rfl
      · rfl
    · rfl
    · rfl

theorem extend_nil (f : Bloom) : f.extend [] = f := by
  cases f <;> simp [Bloom.extend, Bloom.setData, Bloom.data]

theorem res_map_id {α : Type} (r : Res α) {f : α → α} (h : ∀ a, f a = a) : r.map f = r := by
  cases r <;> simp [Res.map, h]

theorem parallelInsert_append (s : Schedule) (bf : Bloom) {files : List Path} (hp : p ∉ files)
    (jobs : ℕ) : parallelInsert env (w.append p d) s bf files jobs =
      parallelInsert env w s bf files jobs := by
  have h := parallelInsert_extend (env := env) (w := w) (d := d) (e := []) s bf hp jobs
  rw [extend_nil] at h
  rw [h]
  rcases parallelInsert env w s bf files jobs with _ | r
  · rfl
  · rw [Option.map_some, res_map_id _ extend_nil]

theorem insertLines_extend (bf : Bloom) (ls : List (Res (List U8))) :
    insertLines env (bf.extend e) ls = (insertLines env bf ls).map (Bloom.extend e) := by
  induction ls generalizing bf with
  | nil => rfl
  | cons l ls ih =>
    cases l with
    | ok line =>
      simp only [insertLines, Bloom.insertBytes_extend]
      rcases bf.insertBytes env line with ⟨g, _ | _ | _⟩
      · exact ih g
      · rfl
      · rfl
    | err _ => rfl
    | panic => rfl

theorem append_put_other {q : Path} (h : q ≠ p) (bs : List U8) :
    (w.append p d).put q bs = (w.put q bs).append p d := by
  unfold World.append World.put
  congr 1
  funext x
  by_cases hx : x = q
  · subst hx; simp [h]
  · simp [hx]

theorem append_put (bs : List U8) : (w.append p d).put p (bs ++ d) = (w.put p bs).append p d := by
  unfold World.append World.put
  congr 1
  funext x
  by_cases hx : x = p
  · subst hx; simp
  · simp [hx]

theorem put_put (q : Path) (a bs : List U8) : (w.put q a).put q bs = w.put q bs := by
  unfold World.put
  congr 1
  funext x
  by_cases hx : x = q
  · simp [hx]
  · simp [hx]

theorem save_put (q : Path) (bf : Bloom) : save w q bf =
    if w.creatable q then (w.put q (bf.write ⟨[], w.disk⟩).1.out, (bf.write ⟨[], w.disk⟩).2)
    else (w, .err (.ioError .other)) := by
  unfold save World.create
  by_cases h : w.creatable q = true
  · rw [if_pos h, if_pos h]
    exact Prod.ext (put_put (w := w) q [] _) rfl
  · rw [if_neg h, if_neg h]

theorem save_append_other {q : Path} (h : q ≠ p) (bf : Bloom) :
    save (w.append p d) q bf = ((save w q bf).1.append p d, (save w q bf).2) := by
  rw [save_put, save_put, append_put_other h]
  show (if w.creatable q = true then _ else _) = _
  split <;> rfl

theorem save_append (hd : w.disk = none) (bf : Bloom) :
    save (w.append p d) p (bf.extend d) = ((save w p bf).1.append p d, (save w p bf).2) := by
  have h1 : ∀ f : Bloom, (f.write ⟨[], none⟩).2 = .ok () := fun f => by
    rw [Bloom.write_none]
  have h2 : (w.append p d).disk = none := hd
  have h3 : ((bf.extend d).write ⟨[], none⟩).1.out = (bf.write ⟨[], none⟩).1.out ++ d :=
    Bloom.file_extend d bf
  rw [save_put, save_put, h2, hd, h3, append_put, h1, h1]
  show (if w.creatable p = true then _ else _) = _
  split <;> rfl

theorem ready_open (h : w.Ready env p) : ∃ bs f, w.open p = .ok (Reader.ofBytes bs) ∧
    (w.append p d).open p = .ok (Reader.ofBytes (bs ++ d)) ∧
    Bloom.fromReader env (Reader.ofBytes bs) = .ok f ∧
    Bloom.fromReader env (Reader.ofBytes (bs ++ d)) = .ok (f.extend d) := by
  obtain ⟨h2, f, bs, h1, h3⟩ := h
  refine ⟨bs, f, ?_, ?_, h3, Bloom.load_extend h3 d⟩
  · unfold World.open; rw [h1, h2]
  · unfold World.open World.append
    simp only [if_true, h1, h2, Option.map_some]

theorem insert_append (hw : w.Ready env p) (hd : w.disk = none) (s : Schedule) (stdin : Stdin)
    {o : Insert} (hp : p ∉ o.inputs) (jobs : ℕ) :
    insert env (w.append p d) s stdin o jobs =
      ((insert env w s stdin o jobs).1.append p d, (insert env w s stdin o jobs).2) := by
  unfold insert
  by_cases hf : o.file = p
  · obtain ⟨bs, f, h1, h2, h3, h4⟩ := ready_open (d := d) hw
    rw [hf, h1, h2, Res.bind_ok, Res.bind_ok, h3, h4, Res.bind_ok, Res.bind_ok]
    have h5 : (if (o.stdin || o.inputs.isEmpty) = true then insertLines env (f.extend d) stdin.lines
          else .ok (f.extend d)) =
        (if (o.stdin || o.inputs.isEmpty) = true then insertLines env f stdin.lines
          else .ok f).map (Bloom.extend d) := by
      split
      · exact insertLines_extend f _
      · rfl
    rw [h5]
    rcases (if (o.stdin || o.inputs.isEmpty) = true then insertLines env f stdin.lines
          else .ok f) with g | _ | _
    · simp only [Res.map]
      rw [parallelInsert_extend s g hp]
      rcases parallelInsert env w s g o.inputs jobs with _ | g' | _ | _
      · rfl
      · simp only [Option.map_some, Res.map]
        rw [save_append hd]
      · rfl
      · rfl
    · rfl
    · rfl
  · rw [open_append hf]
    split
    · rename_i g _
      rw [parallelInsert_append s g hp]
      split
      · rename_i g' _
        rw [save_append_other hf]
      · rfl
      · rfl
      · rfl
    · rfl
    · rfl

theorem countBatch_spared {files : List Path} (hp : p ∉ files) :
    countBatch (w.append p d) files = countBatch w files := by
  induction files with
  | nil => rfl
  | cons f fs ih =>
    rw [List.mem_cons, not_or] at hp
    unfold countBatch
    rw [open_append (Ne.symm hp.1), ih hp.2]

theorem countLinesParallel_append {files : List Path} (hp : p ∉ files) (jobs : ℕ) :
    countLinesParallel (w.append p d) files jobs = countLinesParallel w files jobs := by
  unfold countLinesParallel
  have h1 : optimalJobs (w.append p d) jobs = optimalJobs w jobs := rfl
  rw [h1]
  rcases hb : batches files (optimalJobs w jobs) with bs | _ | _
  · dsimp only
    congr 1
    exact List.map_congr_left fun b h => countBatch_spared fun h2 => hp (batches_mem hb h h2)
  · rfl
  · rfl

theorem create_append (s : Schedule) {o : Create} (hf : o.file ≠ p) (hp : p ∉ o.dataset)
    (jobs : ℕ) : create env (w.append p d) s o jobs =
      ((create env w s o jobs).1.append p d, (create env w s o jobs).2) := by
  have h1 : createGuard env (w.append p d) o.file = createGuard env w o.file := by
    unfold createGuard
    rw [open_append hf]
    show (match (if o.file = p then _ else w.fs o.file) with | none => _ | some _ => _) = _
    rw [if_neg hf]
    rfl
  have h2 : createFilter env (w.append p d) o jobs = createFilter env w o jobs := by
    unfold createFilter
    rw [countLinesParallel_append hp]
  unfold create
  rw [h1, h2]
  rcases createGuard env w o.file with _ | _ | _
  · dsimp only
    rcases createFilter env w o jobs with _ | b | _ | _
    · rfl
    · dsimp only
      rw [parallelInsert_append s b hp]
      rcases parallelInsert env w s b o.dataset jobs with _ | bf | _ | _
      · rfl
      · dsimp only
        rw [save_append_other hf]
      · rfl
      · rfl
    · rfl
    · rfl
  · rfl
  · rfl

theorem checkStdinTo_extend (bf : Bloom) (o : Check) (ls : List (Res (List U8)))
    (s : Stdout (List U8)) : checkStdinTo env (bf.extend e) o ls s = checkStdinTo env bf o ls s := by
  induction ls generalizing s with
  | nil => rfl
  | cons l ls ih =>
    unfold checkStdinTo
    simp only [Bloom.containsBytes_extend, ih]

/-- The checking thread does not open the file. -/
def Checker.Avoids (p : Path) : Checker → Prop
  | .running _ fs => p ∉ fs
  | .done _ => True

theorem stepTo_avoids {bf : Bloom} {o : Check} {a : Checker} (h : a.Avoids p)
    (s : Stdout (List U8)) : (a.stepTo env w bf o s).1.Avoids p := by
  rcases a with ⟨_ | ⟨l, ls⟩, _ | ⟨f, fs⟩⟩ | r
  · trivial
  · unfold Checker.stepTo
    dsimp only
    split
    · exact fun hm => h (List.mem_cons_of_mem _ hm)
    · trivial
    · trivial
  · unfold Checker.stepTo
    dsimp only
    repeat' split
    all_goals trivial
  · unfold Checker.stepTo
    dsimp only
    repeat' split
    all_goals trivial
  · trivial

theorem stepTo_extend {bf : Bloom} {o : Check} {a : Checker} (h : a.Avoids p)
    (s : Stdout (List U8)) :
    a.stepTo env (w.append p d) (bf.extend e) o s = a.stepTo env w bf o s := by
  rcases a with ⟨_ | ⟨l, ls⟩, fs⟩ | r
  · cases fs with
    | nil => rfl
    | cons f fs =>
      have hf : f ≠ p := fun h' => h (h' ▸ List.mem_cons_self ..)
      unfold Checker.stepTo
      dsimp only
      rw [open_append hf]
  · unfold Checker.stepTo
    simp only [Bloom.containsBytes_extend]
  · rfl

theorem runCheckersTo_extend {bf : Bloom} {o : Check} (sched : Schedule) (ts : List Checker)
    (h : ∀ a ∈ ts, a.Avoids p) (s : Stdout (List U8)) :
    runCheckersTo env (w.append p d) (bf.extend e) o sched ts s =
      runCheckersTo env w bf o sched ts s := by
  induction sched generalizing ts s with
  | nil => rfl
  | cons i sched ih =>
    unfold runCheckersTo
    split
    · exact ih ts h s
    · rename_i t ht
      have h1 := h t (List.mem_of_getElem? ht)
      rw [stepTo_extend h1]
      refine ih _ (fun a ha => ?_) _
      rcases List.mem_or_eq_of_mem_set ha with h2 | rfl
      · exact h a h2
      · exact stepTo_avoids h1 s

theorem checkFilesTo_extend {bf : Bloom} {o : Check} (hp : p ∉ o.inputs) (sched : Schedule)
    (jobs : ℕ) (s : Stdout (List U8)) :
    checkFilesTo env (w.append p d) sched (bf.extend e) o jobs s =
      checkFilesTo env w sched bf o jobs s := by
  unfold checkFilesTo
  split
  · rfl
  · rcases hb : batches o.inputs jobs with bs | _ | _
    · dsimp only
      rw [runCheckersTo_extend]
      intro a ha
      obtain ⟨b, h1, rfl⟩ := List.mem_map.1 ha
      exact fun h2 => hp (batches_mem hb h1 h2)
    · rfl
    · rfl

theorem checkTo_append (hw : w.Ready env p) (sched : Schedule) (stdin : Stdin) {o : Check}
    (hp : p ∉ o.inputs) (jobs : ℕ) (s : Stdout (List U8)) :
    checkTo env (w.append p d) sched stdin o jobs s = checkTo env w sched stdin o jobs s := by
  unfold checkTo
  by_cases hf : o.file = p
  · obtain ⟨bs, f, h1, h2, h3, h4⟩ := ready_open (d := d) hw
    rw [hf, h1, h2, Res.bind_ok, Res.bind_ok, h3, h4]
    simp only [checkStdinTo_extend, checkFilesTo_extend hp]
  · rw [open_append hf]
    split
    · rename_i bf _
      have h1 : ∀ s, checkFilesTo env (w.append p d) sched bf o jobs s =
          checkFilesTo env w sched bf o jobs s := fun s => by
        have := checkFilesTo_extend (env := env) (w := w) (d := d) (e := []) (bf := bf) hp sched jobs s
        rwa [extend_nil] at this
      simp only [h1]
    · rfl
    · rfl

/-- The same outcome. -/
def ResRel {α β : Type} (R : α → β → Prop) : Res α → Res β → Prop
  | .ok a, .ok b => R a b
  | .err e, .err e' => e = e'
  | .panic, .panic => True
  | _, _ => False

/-- The same lines but for the length of data, and the same outcome. -/
def Log.Near {α β : Type} (R : α → β → Prop) (a : Log α) (b : Log β) : Prop :=
  List.Forall₂ SameLine a.out b.out ∧ ResRel R a.res b.res

theorem sameLines_refl (ls : List String) : List.Forall₂ SameLine ls ls :=
  List.forall₂_same.2 fun _ _ => .inl rfl

theorem Log.Near.refl {α : Type} (a : Log α) : a.Near Eq a := by
  refine ⟨sameLines_refl _, ?_⟩
  rcases a.res with _ | _ | _ <;> simp [ResRel]

theorem Log.Near.bind {α β γ δ : Type} {R : α → β → Prop} {S : γ → δ → Prop} {x : Log α} {y : Log β}
    {f : α → Log γ} {g : β → Log δ} (h : x.Near R y) (hf : ∀ a b, R a b → (f a).Near S (g b)) :
    Log.Near S (x >>= f) (y >>= g) := by
  rcases x with ⟨o1, r1 | r1 | _⟩ <;> rcases y with ⟨o2, r2 | r2 | _⟩
  all_goals obtain ⟨h1, h2⟩ := h
  all_goals first | exact absurd h2 id | skip
  · obtain ⟨h3, h4⟩ := hf _ _ h2
    exact ⟨List.rel_append h1 h3, h4⟩
  · exact ⟨h1, h2⟩
  · exact ⟨h1, h2⟩

theorem Log.Near.same {α γ δ : Type} {S : γ → δ → Prop} (x : Log α) {f : α → Log γ}
    {g : α → Log δ} (hf : ∀ a, (f a).Near S (g a)) : Log.Near S (x >>= f) (x >>= g) :=
  (Log.Near.refl x).bind fun a _ h => h ▸ hf a

theorem printAll_near {as bs : List String} (h : List.Forall₂ SameLine as bs) {ls ls' : List String}
    (hl : List.Forall₂ SameLine ls ls') (room : Option ℕ) :
    List.Forall₂ SameLine ((⟨ls, room⟩ : Stdout String).printAll as).1.lines
      ((⟨ls', room⟩ : Stdout String).printAll bs).1.lines ∧
    ((⟨ls, room⟩ : Stdout String).printAll as).2 = ((⟨ls', room⟩ : Stdout String).printAll bs).2 := by
  induction h generalizing ls ls' room with
  | nil => exact ⟨hl, rfl⟩
  | cons h1 h2 ih =>
    rcases room with _ | _ | n
    · exact ih (List.rel_append hl (.cons h1 .nil)) _
    · exact ⟨hl, rfl⟩
    · exact ih (List.rel_append hl (.cons h1 .nil)) _

theorem Log.Near.to {x y : Log Unit} (h : x.Near Eq y) (room : Option ℕ) :
    List.Forall₂ SameLine (x.to ⟨[], room⟩).1.lines (y.to ⟨[], room⟩).1.lines ∧
      (x.to ⟨[], room⟩).2 = (y.to ⟨[], room⟩).2 := by
  obtain ⟨h1, h2⟩ := h
  have h3 : x.res = y.res := by
    revert h2
    rcases x.res with _ | _ | _ <;> rcases y.res with _ | _ | _ <;> simp [ResRel]
  obtain ⟨h4, h5⟩ := printAll_near h1 List.Forall₂.nil room
  unfold Log.to
  revert h4 h5
  rcases (⟨[], room⟩ : Stdout String).printAll x.out with ⟨s, _ | _ | _⟩ <;>
    rcases (⟨[], room⟩ : Stdout String).printAll y.out with ⟨s', _ | _ | _⟩ <;>
    intro h4 h5 <;> simp_all

theorem showBfPropertiesLog_extend (fmt : Fmt) (b : Bloom) :
    (showBfPropertiesLog fmt env b).Near Eq (showBfPropertiesLog fmt env (b.extend e)) := by
  have h1 : (b.extend e).version = b.version := by cases b <;> rfl
  have h2 : (b.extend e).capacity = b.capacity := by cases b <;> rfl
  have h3 : (b.extend e).countEstimate = b.countEstimate := by cases b <;> rfl
  have h4 : (b.extend e).fpp = b.fpp := by cases b <;> rfl
  have h5 : (b.extend e).sizeInBytes env = b.sizeInBytes env := by cases b <;> rfl
  unfold showBfPropertiesLog
  rw [h1, h2, h3, h4, h5]
  refine .same _ fun _ => .same _ fun _ => .same _ fun _ => .same _ fun _ => ?_
  refine Log.Near.bind (R := Eq) ⟨.cons (.inr ⟨_, _, rfl, rfl⟩) .nil, rfl⟩ fun _ _ _ => ?_
  exact .refl _

theorem showLog_append (hw : w.Ready env p) (fmt : Fmt) (file : Path) :
    (showLog fmt env w file).Near Eq (showLog fmt env (w.append p d) file) := by
  unfold showLog
  by_cases hf : file = p
  · subst hf
    obtain ⟨bs, f, h1, h2, h3, h4⟩ := ready_open (d := d) hw
    rw [h1, h2]
    refine Log.Near.bind (R := fun r r' => r = Reader.ofBytes bs ∧ r' = Reader.ofBytes (bs ++ d))
      ⟨.nil, rfl, rfl⟩ ?_
    rintro _ _ ⟨rfl, rfl⟩
    rw [Bloom.partialFromReader_of_full h3, Bloom.partialFromReader_of_full h4,
      Bloom.stripped_extend]
    refine Log.Near.bind (R := fun b b' : Bloom => b' = b.extend d) ⟨.nil, rfl⟩ ?_
    rintro b _ rfl
    exact .same _ fun _ => showBfPropertiesLog_extend fmt b
  · rw [open_append hf]
    exact .refl _

theorem benchStats_extend (b : Bloom) (ls : List (Bool × List U8)) (s : Stats) :
    benchStats env (b.extend e) ls s = benchStats env b ls s := by
  induction ls generalizing s with
  | nil => rfl
  | cons l ls ih =>
    unfold benchStats
    simp only [Bloom.containsBytes_extend, ih]

theorem benchAll_extend (b : Bloom) (es : List (List U8)) :
    benchAll env (b.extend e) es = benchAll env b es := by
  induction es with
  | nil => rfl
  | cons l ls ih =>
    unfold benchAll
    simp only [Bloom.containsBytes_extend, ih]

theorem benchRounds_extend (fmt : Fmt) (mc : Measure) (rng : BenchRng) (b : Bloom)
    (es : List (List U8)) (n runs : ℕ) (ms : List ℕ) :
    benchRounds fmt env mc rng (b.extend e) es n runs ms =
      benchRounds fmt env mc rng b es n runs ms := by
  induction ms with
  | nil => rfl
  | cons m ms ih =>
    unfold benchRounds benchRound
    simp only [benchStats_extend, ih]

theorem benchBloom_append (hw : w.Ready env p) (o : Benchmark) (es : List (List U8)) :
    ResRel (fun b b' => ∃ e, b' = Bloom.extend e b) (benchBloom env w o es)
      (benchBloom env (w.append p d) o es) := by
  have same : ∀ r : Res Bloom, ResRel (fun b b' => ∃ e, b' = Bloom.extend e b) r r := by
    intro r
    rcases r with b | _ | _
    · exact ⟨[], (extend_nil b).symm⟩
    · rfl
    · trivial
  unfold benchBloom
  split
  · rename_i file _
    by_cases hf : file = p
    · subst hf
      obtain ⟨bs, f, h1, h2, h3, h4⟩ := ready_open (d := d) hw
      rw [h1, h2, Res.bind_ok, Res.bind_ok, h3, h4, Res.bind_ok, Res.bind_ok, benchAll_extend]
      rcases benchAll env f es with _ | _ | _
      · exact ⟨d, rfl⟩
      · rfl
      · trivial
    · rw [open_append hf]
      exact same _
  · exact same _

theorem benchLog_append (hw : w.Ready env p) (fmt : Fmt) (hash : List U8 → U64) (mc : Measure)
    (rng : BenchRng) (stdin : Stdin) (o : Benchmark) :
    (benchLog fmt env w hash mc rng stdin o).Near Eq
      (benchLog fmt env (w.append p d) hash mc rng stdin o) := by
  unfold benchLog
  refine .same _ fun _ => .same _ fun _ => .same _ fun es => .same _ fun _ => ?_
  refine Log.Near.bind (R := fun b b' => ∃ e, b' = Bloom.extend e b)
    ⟨.nil, benchBloom_append hw o es⟩ ?_
  rintro b _ ⟨e, rfl⟩
  refine Log.Near.bind (showBfPropertiesLog_extend fmt b) fun _ _ _ => ?_
  have h4 : (b.extend e).fpp = b.fpp := by cases b <;> rfl
  dsimp only
  rw [benchRounds_extend]
  unfold benchVerdict
  rw [h4]
  exact .refl _

/-- One run. -/
theorem main_append (hw : w.Ready env p) (hd : w.disk = none) (t : Libs) {r : Run}
    (hr : r.Spares p) : (main t env (w.append p d) r).1 = (main t env w r).1.append p d ∧
      SamePrinted (main t env w r).2.1 (main t env (w.append p d) r).2.1 ∧
      (main t env (w.append p d) r).2.2 = (main t env w r).2.2 := by
  unfold Run.Spares at hr
  unfold main
  cases hc : r.command with
  | create o =>
    rw [hc] at hr
    dsimp only
    rw [create_append r.sched hr.1 hr.2]
    exact ⟨rfl, rfl, rfl⟩
  | insert o =>
    rw [hc] at hr
    dsimp only
    rw [insert_append hw hd r.sched r.stdin hr]
    exact ⟨rfl, rfl, rfl⟩
  | check o =>
    rw [hc] at hr
    dsimp only
    rw [checkTo_append hw r.sched r.stdin hr]
    exact ⟨rfl, rfl, rfl⟩
  | bench o =>
    have h := (benchLog_append (d := d) hw t.fmt t.hash r.measure r.rng r.stdin o).to r.stdout
    exact ⟨rfl, h.1, congrArg some h.2.symm⟩
  | «show» file =>
    have h := (showLog_append (d := d) hw t.fmt file).to r.stdout
    exact ⟨rfl, h.1, congrArg some h.2.symm⟩

/-- The file still holds a filter. -/
theorem main_stored (hs : env.Small) (hw : w.Ready env p) (hd : w.disk = none) (t : Libs) {r : Run}
    (hr : r.Spares p) : (main t env w r).1.Ready env p ∧ (main t env w r).1.disk = none := by
  unfold Run.Spares at hr
  unfold main
  have other : ∀ {q : Path} {bs : List U8}, q ≠ p → (w.put q bs).Ready env p := by
    intro q bs h
    obtain ⟨h2, f, b, h1, h3⟩ := hw
    refine ⟨h2, f, b, ?_, h3⟩
    show (if p = q then _ else _) = _
    rw [if_neg (Ne.symm h)]
    exact h1
  cases hc : r.command with
  | create o =>
    rw [hc] at hr
    dsimp only
    rcases create_cases env w r.sched o r.jobs with ⟨h, -⟩ | ⟨b, bf, -, -, -, -, h⟩
    · rw [h]; exact ⟨hw, hd⟩
    · rw [h]; exact ⟨other hr.1, hd⟩
  | insert o =>
    rw [hc] at hr
    dsimp only
    rcases insert_cases env w r.sched r.stdin o r.jobs with ⟨h, -⟩ | ⟨bs, b, b', bf, a0, a1, a2, a3, -, h⟩
    · rw [h]; exact ⟨hw, hd⟩
    · rw [h]
      refine ⟨?_, hd⟩
      by_cases hf : o.file = p
      · have hb := Bloom.Reach.load a1
        have hb' : b'.Reach env := by
          split at a2
          · obtain ⟨es, -, -, rfl⟩ := insertLines_ok a2
            exact hb.inserts es
          · exact Res.ok.inj a2 ▸ hb
        have hg := insertFiles_reach hb' (parallelInsert_some a3).symm
        refine ⟨hw.1, bf.canon, bf.file, ?_, Bloom.reload_canon hs hg⟩
        rw [hd]
        show (if p = o.file then _ else _) = _
        rw [if_pos hf.symm]
        rfl
      · exact other hf
  | check o => exact ⟨hw, hd⟩
  | bench o => exact ⟨hw, hd⟩
  | «show» file => exact ⟨hw, hd⟩

end Cli
end Poppy
