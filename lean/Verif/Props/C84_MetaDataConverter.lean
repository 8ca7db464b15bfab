import Verif.Model.MetaDataConverter
import Verif.Props.C28_C29_MetaData
/-
C84: Converting the meta data of a permutation keeps all relations and their meta data.
-/
namespace Verif.MetaData
open Verif.Bytes Verif.MetaDataSpec

theorem maxId_ge (m : Map Full) : ∀ e ∈ m, e.1 ≤ maxId m := by
  have H : ∀ (m : Map Full) (x : Nat), x ≤ m.foldl (fun acc e => if e.1 > acc then e.1 else acc) x ∧
      ∀ e ∈ m, e.1 ≤ m.foldl (fun acc e => if e.1 > acc then e.1 else acc) x := by
    intro m
    induction m with
    | nil => intro x; simp
    | cons a m ih =>
      intro x
      simp only [List.foldl_cons, List.mem_cons]
      have := ih (if a.1 > x then a.1 else x)
      refine ⟨?_, ?_⟩
      · refine Nat.le_trans ?_ this.1
        split <;> omega
      · rintro e (rfl | he)
        · refine Nat.le_trans ?_ this.1
          split <;> omega
        · exact this.2 e he
  exact (H m 0).2

theorem maxId_mem (m : Map Full) : maxId m = 0 ∨ ∃ e ∈ m, e.1 = maxId m := by
  have H : ∀ (m : Map Full) (x : Nat), m.foldl (fun acc e => if e.1 > acc then e.1 else acc) x = x ∨
      ∃ e ∈ m, e.1 = m.foldl (fun acc e => if e.1 > acc then e.1 else acc) x := by
    intro m
    induction m with
    | nil => intro x; simp
    | cons a m ih =>
      intro x
      simp only [List.foldl_cons, List.mem_cons]
      rcases ih (if a.1 > x then a.1 else x) with h | ⟨e, he, h⟩
      · by_cases hx : a.1 > x
        · right; exact ⟨a, .inl rfl, by rw [h, if_pos hx]⟩
        · left; rw [h, if_neg hx]
      · right; exact ⟨e, .inr he, h⟩
  exact H m 0

theorem get_cons (e : Nat × Full) (m : Map Full) (id : Nat) : Map.get (e :: m) id = if e.1 = id then some e.2 else Map.get m id := by
  unfold Map.get
  by_cases h : e.1 = id
  · rw [List.find?_cons_of_pos (by simpa using h), if_pos h]; rfl
  · rw [List.find?_cons_of_neg (by simpa using h), if_neg h]

theorem get_none_of_not_mem {m : Map Full} {id : Nat} (h : id ∉ m.map Prod.fst) : Map.get m id = none := by
  unfold Map.get
  rw [List.find?_eq_none.mpr]
  · rfl
  · intro e he hc
    exact h (List.mem_map.mpr ⟨e, he, by simpa using hc⟩)

theorem setAll_dense : ∀ (l : Map Full) (n : Nat) (vec : List Full), (l.map Prod.fst).Nodup → (∀ e ∈ l, e.1 < vec.length) →
    ∃ n' vec', setAll (.dense n vec) l = .ok (.dense n' vec') ∧ vec'.length = vec.length ∧ n' ≤ n + l.length ∧
      ∀ id, id < vec.length → vec'[id]? = some ((Map.get l id).getD (vec[id]?.getD Full.empty))
  | [], n, vec, _, _ => ⟨n, vec, rfl, rfl, by simp, fun id h => by simp [Map.get, h]⟩
  | e :: l, n, vec, hn, hl => by
    have hn' : e.1 ∉ l.map Prod.fst ∧ (l.map Prod.fst).Nodup := List.nodup_cons.mp hn
    have he := hl e List.mem_cons_self
    obtain ⟨n', vec', h1, h2, h3, h4⟩ := setAll_dense l (if vec[e.1] = Full.empty then n + 1 else n) (vec.set e.1 e.2) hn'.2
      (fun x hx => by simpa using hl x (List.mem_cons_of_mem _ hx))
    refine ⟨n', vec', ?_, by simpa using h2, ?_, fun id hid => ?_⟩
    · simp only [setAll, Data.set]
      rw [if_neg (by omega), Outcome.read_lt _ _ he]
      simpa only [Outcome.bind] using h1
    · simp only [List.length_cons]
      split at h3 <;> omega
    · rw [h4 id (by simpa using hid), get_cons]
      by_cases h : e.1 = id
      · subst h
        rw [get_none_of_not_mem hn'.1]
        simp [hid]
      · simp [h]

theorem setAll_sparse : ∀ (l m : Map Full), (m.map Prod.fst).Nodup → (l.map Prod.fst).Nodup →
    ∃ m', setAll (.sparse m) l = .ok (.sparse m') ∧ (m'.map Prod.fst).Nodup ∧ m'.length ≤ m.length + l.length ∧
      ∀ id, Map.get m' id = (Map.get l id).or (Map.get m id)
  | [], m, hm, _ => ⟨m, rfl, hm, by simp, fun id => by simp [Map.get]⟩
  | e :: l, m, hm, hn => by
    have hn' : e.1 ∉ l.map Prod.fst ∧ (l.map Prod.fst).Nodup := List.nodup_cons.mp hn
    obtain ⟨m', h1, h2, h3, h4⟩ := setAll_sparse l (m.set e.1 e.2) (nodup_set hm _ _) hn'.2
    refine ⟨m', h1, h2, ?_, fun id => ?_⟩
    · have : (Map.set m e.1 e.2).length ≤ m.length + 1 := by
        simp only [Map.set, List.length_cons]
        have := List.length_filter_le (fun x : Nat × Full => x.1 != e.1) m
        omega
      simp only [List.length_cons]
      omega
    · rw [h4, get_set, get_cons]
      by_cases h : e.1 = id
      · subst h
        rw [get_none_of_not_mem hn'.1]
        simp
      · simp [h]

theorem mem_entries_dense (n : Nat) (vec : List Full) (e : Nat × Full) :
    e ∈ (Data.dense n vec).entries ↔ vec[e.1]? = some e.2 ∧ e.2 ≠ Full.empty := by
  simp only [Data.entries, List.mem_map, List.mem_filter, decide_eq_true_eq]
  constructor
  · rintro ⟨⟨v, i⟩, ⟨h1, h2⟩, rfl⟩
    exact ⟨List.mem_zipIdx_iff_getElem?.mp h1, h2⟩
  · rintro ⟨h1, h2⟩
    exact ⟨(e.2, e.1), ⟨List.mem_zipIdx_iff_getElem?.mpr h1, h2⟩, rfl⟩

theorem nodup_entries_dense (n : Nat) (vec : List Full) : ((Data.dense n vec).entries.map Prod.fst).Nodup := by
  simp only [Data.entries, List.map_map]
  have h : ((vec.zipIdx.map Prod.snd)).Nodup := by
    rw [List.zipIdx_map_snd]
    exact List.nodup_range'
  have h2 : (vec.zipIdx.filter fun e => decide (e.1 ≠ Full.empty)).map Prod.snd |>.Nodup :=
    List.Nodup.sublist (List.Sublist.map _ (List.filter_sublist)) h
  exact h2

theorem verifyAll_ok (d : Data) : ∀ es, (∀ e ∈ es, d.getAsserted e.1 = .ok e.2) → verifyAll d es = .ok ()
  | [], _ => rfl
  | e :: es, h => by
    simp only [verifyAll, h e List.mem_cons_self, Outcome.bind, if_true]
    exact verifyAll_ok d es (fun x hx => h x (List.mem_cons_of_mem _ hx))

theorem copyChunks_eq (chunk : Nat) (old : List Nat) : ∀ (remaining pos : Nat), copyChunks chunk old pos remaining = pread old pos remaining := by
  intro remaining
  induction remaining using Nat.strongRecOn with
  | _ remaining ih =>
    intro pos
    unfold copyChunks
    split
    · rename_i h
      rw [ih (remaining - chunk) (by omega)]
      unfold pread
      rw [show remaining = chunk + (remaining - chunk) by omega, List.take_add, List.drop_drop]
      simp
    · rfl

/-- **The relations are copied**: the new file begins with the same bytes, whatever follows, and its meta data comes right behind
them. -/
theorem C84_copied (file rest : List Nat) (h : file.length < 2 ^ 64) (s : Index) :
    writeNewPermutation (file ++ rest ++ toLE 8 file.length) s = s.appendToFile file := by
  have hl : (file ++ rest ++ toLE 8 file.length).length - 8 = file.length + rest.length := by simp; omega
  have hp : pread (file ++ rest ++ toLE 8 file.length) (file.length + rest.length) 8 = toLE 8 file.length :=
    pread_mid' _ (file ++ rest) (toLE 8 file.length) [] _ _ (by simp) (by simp) (by simp)
  unfold writeNewPermutation
  rw [if_neg (by simp; omega), hl, hp, ofLE_toLE 8 _ (by simpa using h), copyChunks_eq]
  congr 1
  simp [pread]

theorem inv_reordered {s s' : Index} {adds : List Add} (h : Inv s adds) (hre : Reordered s s') : Inv s' adds := by
  obtain ⟨h1, h2, h3⟩ := hre
  have hd : DataInv s'.data adds := by
    have hi := h.data
    cases hs : s.data with
    | sparse m =>
      cases hs' : s'.data with
      | sparse m' =>
        rw [hs] at hi
        rw [hs, hs'] at h1
        have hp : m'.Perm m := h1
        exact ⟨(hp.map Prod.fst).nodup_iff.mpr hi.1, fun id => (get_perm hi.1 hp id).trans (hi.2 id)⟩
      | dense n v => rw [hs, hs'] at h1; exact absurd h1 id
    | dense n v =>
      cases hs' : s'.data with
      | sparse m' => rw [hs, hs'] at h1; exact absurd h1 id
      | dense n' v' =>
        rw [hs] at hi
        rw [hs, hs'] at h1
        obtain ⟨rfl, rfl⟩ := h1
        exact hi
  exact ⟨hd, fun id a h4 h5 => (get_perm h.bkeys h2 id).trans (h.blocks id a h4 h5), (h2.map Prod.fst).nodup_iff.mpr h.bkeys,
    fun e he => h.bprov e (h2.mem_iff.mp he), fun a ha => by rw [h3]; exact h.off a ha⟩

theorem inv_copy {s : Index} {adds : List Add} (h : Inv s adds) {d : Data} (hd : DataInv d adds) : Inv (copyMembers s d) adds :=
  ⟨hd, h.blocks, h.bkeys, h.bprov, h.off⟩

theorem getAsserted_sparse {m : Map Full} {id : Nat} {v : Full} (h : Map.get m id = some v) : (Data.sparse m).getAsserted id = .ok v := by
  simp only [Data.getAsserted, h]

theorem getAsserted_dense {n : Nat} {vec : List Full} {id : Nat} {v : Full} (h : vec[id]? = some v) (hv : v ≠ Full.empty) :
    (Data.dense n vec).getAsserted id = .ok v := by
  simp only [Data.getAsserted, Outcome.read, h, Outcome.bind, if_neg hv]

theorem reordered_refl (s : Index) : Reordered s s := by
  refine ⟨?_, List.Perm.refl _, rfl⟩
  cases s.data with
  | sparse m => exact List.Perm.refl _
  | dense n v => exact ⟨rfl, rfl⟩

theorem toMmap_of_inv (adds : List Add) (hwf : ∀ a ∈ adds, a.1.WF ∧ a.2.WF) (hid : ∀ a ∈ adds, a.1.relId < 2 ^ 64 - 1)
    (s' : Index) (hinv : Inv s' adds) {m : Map Full} (hd : s'.data = .sparse m) (hfits : s'.Fits) (verify : Bool) (file : List Nat)
    (hfile : file.length < 2 ^ 64) :
    ∃ u size vec new, s'.toMmap verify = .ok u ∧ u.data = .dense size vec ∧ u.appendToFile file = .ok new ∧ new.take file.length = file ∧
      (∀ a ∈ adds, a.1.relId < vec.length) ∧
      ∃ t, Index.readFromFile (some vec) new = .ok t ∧ t.name = s'.name ∧ t.offsetAfter = s'.offsetAfter ∧
        t.totalElements = s'.totalElements ∧
        ∀ id, id < vec.length → t.data.exists id = .ok (lastFor (fun a : Add => a.1.relId) adds id).isSome ∧
          t.getRmd id = match lastFor (fun a : Add => a.1.relId) adds id with
            | none => .throw
            | some a => .ok (a.1, if a.1.hasBlocks then some a.2 else none) := by
  have hdi := hinv.data
  rw [hd] at hdi
  have hent : ∀ e ∈ m, ∃ a, last adds e.1 = some a ∧ a.1 = e.2 := by
    intro e he
    have := (get_some_iff hdi.1 e.1 e.2).mpr he
    rw [hdi.2] at this
    cases hl : last adds e.1 with
    | none => rw [hl] at this; cases this
    | some a => rw [hl] at this; exact ⟨a, rfl, by simpa using this⟩
  have hkey : ∀ e ∈ m, e.1 < 2 ^ 64 - 1 ∧ e.2 ≠ Full.empty := by
    intro e he
    obtain ⟨a, h1, h2⟩ := hent e he
    obtain ⟨h3, h4⟩ := last_mem h1
    have := hid a h3
    refine ⟨by omega, fun hc => ?_⟩
    rw [← h2] at hc
    rw [hc, empty_relId] at this
    omega
  have hlt : maxId m + 1 < 2 ^ 64 := by
    rcases maxId_mem m with h | ⟨e, he, h⟩
    · omega
    · have := (hkey e he).1; omega
  obtain ⟨n', vec, e1, e2, e3, e4⟩ := setAll_dense m 0 (List.replicate (maxId m + 1) Full.empty) hdi.1
    (fun e he => by have := maxId_ge m e he; simp; omega)
  rw [List.length_replicate] at e2 e4
  have hvec : ∀ id, id < vec.length → vec[id]? = some ((Map.get m id).getD Full.empty) := by
    intro id h
    rw [e4 id (by omega)]
    simp [show id < maxId m + 1 by omega]
  have hdata : DataInv (.dense n' vec) adds := ⟨by omega, fun id h => by rw [hvec id h, hdi.2]⟩
  have hver : verified verify s'.data (.dense n' vec) = .ok () := by
    unfold verified
    cases verify with
    | false => rfl
    | true =>
      rw [if_pos rfl, hd, verifyAll_ok, Outcome.bind, verifyAll_ok]
      · intro e he
        have hg := (get_some_iff hdi.1 e.1 e.2).mpr he
        have hb := maxId_ge m e he
        refine getAsserted_dense ?_ (hkey e he).2
        rw [hvec e.1 (by omega), hg]; rfl
      · intro e he
        obtain ⟨h1, h2⟩ := (mem_entries_dense n' vec e).mp he
        have hl : e.1 < vec.length := (List.getElem?_eq_some_iff.mp h1).1
        rw [hvec e.1 hl] at h1
        refine getAsserted_sparse ?_
        cases hg : Map.get m e.1 with
        | none => rw [hg] at h1; exact absurd (Option.some.inj h1).symm h2
        | some v => rw [hg] at h1; exact h1
  have hu : s'.toMmap verify = .ok (copyMembers s' (.dense n' vec)) := by
    unfold Index.toMmap
    rw [hd] at hver ⊢
    simp only [handlerToMmap, e1, Outcome.bind, hver]
  have hadds : ∀ a ∈ adds, a.1.relId < vec.length := by
    intro a ha
    obtain ⟨b, hb⟩ := last_isSome ha
    have hg := hdi.2 a.1.relId
    rw [hb] at hg
    have := maxId_ge m _ ((get_some_iff hdi.1 _ _).mp hg)
    simp only at this
    omega
  have hsize : m.length < 2 ^ 64 := by have := hfits.2.1; rw [hd] at this; exact this
  obtain ⟨new, w1, w2, t, t1, t2, t3, -, t5, -, -, t8⟩ := dense_reload_of_inv (n := vec.length) (inv_copy hinv hdata) rfl rfl hwf hadds
    file hfile _ (reordered_refl _) ⟨hfits.1, by simp only [copyMembers, Data.size]; omega, hfits.2.2.1, hfits.2.2.2.1, hfits.2.2.2.2.1, by
      simp [copyMembers], by simp [copyMembers]⟩
  exact ⟨_, n', vec, new, hu, rfl, w1, w2, hadds, t, t1, t2, t3, t5, t8⟩

/-- **From hash map to vector**: let meta data be built by adding relations, iterated in any order.  The conversion succeeds, with
and without verification, and a client that reads the new file with the new vector finds all relations with their meta data, and no
others.  Missing: the statistics, see `C84_statistics_violated`. -/
theorem C84_toMmap_partial (adds : List Add) (hwf : ∀ a ∈ adds, a.1.WF ∧ a.2.WF) (hid : ∀ a ∈ adds, a.1.relId < 2 ^ 64 - 1)
    (s s' : Index) (hs : addAll (Index.fresh (.sparse [])) adds = .ok s) (hre : Reordered s s') (hfits : s'.Fits) (verify : Bool)
    (file rest : List Nat) (hfile : file.length < 2 ^ 64) :
    ∃ u size vec new, s'.toMmap verify = .ok u ∧ u.data = .dense size vec ∧
      writeNewPermutation (file ++ rest ++ toLE 8 file.length) u = .ok new ∧ new.take file.length = file ∧
      (∀ a ∈ adds, a.1.relId < vec.length) ∧
      ∃ t, Index.readFromFile (some vec) new = .ok t ∧ t.name = s'.name ∧ t.offsetAfter = s'.offsetAfter ∧
        t.totalElements = s'.totalElements ∧
        ∀ id, id < vec.length → t.data.exists id = .ok (lastFor (fun a : Add => a.1.relId) adds id).isSome ∧
          t.getRmd id = match lastFor (fun a : Add => a.1.relId) adds id with
            | none => .throw
            | some a => .ok (a.1, if a.1.hasBlocks then some a.2 else none) := by
  obtain ⟨s0, hs0, m0, hm0⟩ := addAll_sparse (s := Index.fresh (.sparse [])) ⟨_, rfl⟩ adds
  have : s0 = s := by rw [hs] at hs0; exact (Outcome.ok.inj hs0).symm
  subst this
  obtain ⟨hinv0, _⟩ := inv_addAll inv_sparse_fresh adds hs
  rw [List.nil_append] at hinv0
  have hinv := inv_reordered hinv0 hre
  cases hd : s'.data with
  | dense n v => have := hre.1; rw [hm0, hd] at this; exact absurd this id
  | sparse m =>
    obtain ⟨u, size, vec, new, h1, h2, h3, h4⟩ := toMmap_of_inv adds hwf hid s' hinv hd hfits verify file hfile
    exact ⟨u, size, vec, new, h1, h2, by rw [C84_copied _ _ hfile]; exact h3, h4⟩

/-- **From vector to hash map**: likewise for meta data that was built by adding relations to a vector; in the hash map every id can be
looked up. -/
theorem C84_toHmap_partial (n : Nat) (hn : n < 2 ^ 64) (adds : List Add) (hwf : ∀ a ∈ adds, a.1.WF ∧ a.2.WF)
    (hlt : ∀ a ∈ adds, a.1.relId < n) (s s' : Index) (hs : addAll (Index.fresh (.dense 0 (List.replicate n Full.empty))) adds = .ok s)
    (hre : Reordered s s') (hfits : s'.Fits) (verify : Bool) (file rest : List Nat) (hfile : file.length < 2 ^ 64) :
    ∃ u new, s'.toHmap verify = .ok u ∧ writeNewPermutation (file ++ rest ++ toLE 8 file.length) u = .ok new ∧
      new.take file.length = file ∧
      ∃ t, Index.readFromFile none new = .ok t ∧ t.name = s'.name ∧ t.offsetAfter = s'.offsetAfter ∧
        t.totalElements = s'.totalElements ∧
        ∀ id, t.data.exists id = .ok (lastFor (fun a : Add => a.1.relId) adds id).isSome ∧
          t.getRmd id = match lastFor (fun a : Add => a.1.relId) adds id with
            | none => .throw
            | some a => .ok (a.1, if a.1.hasBlocks then some a.2 else none) := by
  obtain ⟨s0, hs0, n0, vec0, hd0, hl0⟩ := addAll_dense (s := Index.fresh (.dense 0 (List.replicate n Full.empty))) rfl adds
    (fun a ha => by simpa using hlt a ha)
  have : s0 = s := by rw [hs] at hs0; exact (Outcome.ok.inj hs0).symm
  subst this
  rw [List.length_replicate] at hl0
  obtain ⟨hinv0, _⟩ := inv_addAll (inv_dense_fresh n hn) adds hs
  rw [List.nil_append] at hinv0
  have hinv := inv_reordered hinv0 hre
  cases hd : s'.data with
  | sparse m => have := hre.1; rw [hd0, hd] at this; exact absurd this id
  | dense k vec =>
    have hv : vec = vec0 := by have := hre.1; rw [hd0, hd] at this; exact this.2
    subst hv
    have hdi := hinv.data
    rw [hd] at hdi
    have hne : ∀ a ∈ adds, a.1 ≠ Full.empty := by
      intro a ha hc
      have := hlt a ha
      rw [hc, empty_relId] at this
      omega
    have hget : ∀ id, Map.get (Data.dense k vec).entries id = (last adds id).map Prod.fst := by
      intro id
      apply Option.ext
      intro v
      rw [get_some_iff (nodup_entries_dense k vec), mem_entries_dense]
      constructor
      · rintro ⟨h1, h2⟩
        have hl : id < vec.length := (List.getElem?_eq_some_iff.mp h1).1
        rw [hdi.2 id hl] at h1
        cases hla : last adds id with
        | none => rw [hla] at h1; exact absurd (Option.some.inj h1).symm h2
        | some a => rw [hla] at h1; simpa using h1
      · intro h
        cases hla : last adds id with
        | none => rw [hla] at h; cases h
        | some a =>
          rw [hla] at h
          obtain ⟨h1, h2⟩ := last_mem hla
          have hl : id < vec.length := by rw [hl0, ← h2]; exact hlt a h1
          have hav : a.1 = v := by simpa using h
          refine ⟨?_, by rw [← hav]; exact hne a h1⟩
          show vec[id]? = some v
          rw [hdi.2 id hl, hla, ← hav]; rfl
    obtain ⟨m, e1, e2, e3, e4⟩ := setAll_sparse (Data.dense k vec).entries [] (by simp) (nodup_entries_dense k vec)
    have hm : ∀ id, Map.get m id = (last adds id).map Prod.fst := fun id => by rw [e4, hget]; simp [Map.get]
    have hdata : DataInv (.sparse m) adds := ⟨e2, hm⟩
    have hver : verified verify (.dense k vec) (.sparse m) = .ok () := by
      unfold verified
      cases verify with
      | false => rfl
      | true =>
        rw [if_pos rfl, verifyAll_ok, Outcome.bind, verifyAll_ok]
        · intro e he
          have := (get_some_iff (nodup_entries_dense k vec) e.1 e.2).mpr he
          exact getAsserted_sparse (by rw [hm, ← hget]; exact this)
        · intro e he
          have h1 := (get_some_iff e2 e.1 e.2).mpr he
          rw [hm, ← hget] at h1
          obtain ⟨h2, h3⟩ := (mem_entries_dense k vec e).mp ((get_some_iff (nodup_entries_dense k vec) e.1 e.2).mp h1)
          exact getAsserted_dense h2 h3
    have hu : s'.toHmap verify = .ok (copyMembers s' (.sparse m)) := by
      unfold Index.toHmap
      rw [hd]
      simp only [handlerToHmap, e1, Outcome.bind, hver]
    have hsize : m.length < 2 ^ 64 := by
      have h1 : (Data.dense k vec).entries.length ≤ vec.length := by
        simp only [Data.entries, List.length_map]
        exact Nat.le_trans (List.length_filter_le _ _) (by simp)
      simp only [List.length_nil] at e3
      omega
    obtain ⟨new, w1, w2, t, t1, t2, t3, t4, -, -, t7⟩ := sparse_reload_of_inv (inv_copy hinv hdata) rfl hwf
      file hfile _ (reordered_refl _) ⟨hfits.1, hsize, hfits.2.2.1, hfits.2.2.2.1, hfits.2.2.2.2.1, by simp [copyMembers], by simp [copyMembers]⟩
    exact ⟨_, new, hu, by rw [C84_copied _ _ hfile]; exact w1, w2, t, t1, t2, t3, t4, t7⟩

/-! Any file that can be read; `convertPermutationToHmap` -/

theorem ofLE_lt' (a : List Nat) (h : ∀ x ∈ a, x < 256) : ofLE a < 256 ^ a.length := by
  induction a with
  | nil => simp [ofLE]
  | cons x a ih =>
    have h1 := h x List.mem_cons_self
    have h2 := ih fun y hy => h y (List.mem_cons_of_mem _ hy)
    simp only [ofLE, List.length_cons, Nat.pow_succ]
    generalize 256 ^ a.length = k at h2 ⊢
    omega

theorem ofLE8_lt (a : List Nat) (h : ∀ x ∈ a, x < 256) (hl : a.length ≤ 8) : ofLE a < 2 ^ 64 :=
  Nat.lt_of_lt_of_le (ofLE_lt' a h) (Nat.le_trans (Nat.pow_le_pow_right (by omega) hl) (by decide))

theorem bind_ok {α β : Type} {x : Outcome α} {f : α → Outcome β} {y : β} (h : x.bind f = .ok y) : ∃ a, x = .ok a ∧ f a = .ok y := by
  cases x with
  | ok a => exact ⟨a, rfl, h⟩
  | throw => cases h
  | ub => cases h
  | diverge => cases h

theorem peek_ok {buf : List Nat} {off n : Nat} {l : List Nat} (h : peek buf off n = .ok l) : l = (buf.drop off).take n ∧ l.length = n := by
  unfold peek at h
  split at h
  · cases h
    refine ⟨rfl, ?_⟩
    rw [List.length_take, List.length_drop]; omega
  · cases h

theorem bytes_drop {l : List Nat} (h : ∀ x ∈ l, x < 256) (n : Nat) : ∀ x ∈ l.drop n, x < 256 := fun x hx => h x (List.mem_of_mem_drop hx)

theorem bytes_take {l : List Nat} (h : ∀ x ∈ l, x < 256) (n : Nat) : ∀ x ∈ l.take n, x < 256 := fun x hx => h x (List.mem_of_mem_take hx)

theorem rd64_lt {buf : List Nat} (hb : ∀ x ∈ buf, x < 256) {off x : Nat} (h : rd64 buf off = .ok x) : x < 2 ^ 64 := by
  unfold rd64 at h
  cases hp : peek buf off 8 with
  | ok l =>
    rw [hp] at h
    cases h
    obtain ⟨h1, h2⟩ := peek_ok hp
    exact ofLE8_lt l (by rw [h1]; exact bytes_take (bytes_drop hb _) _) (by omega)
  | throw => rw [hp] at h; cases h
  | ub => rw [hp] at h; cases h
  | diverge => rw [hp] at h; cases h

theorem full_create_wf {buf : List Nat} (hb : ∀ x ∈ buf, x < 256) {m : Full} (h : Full.create buf = .ok m) : m.WF := by
  unfold Full.create at h
  obtain ⟨a, h1, h⟩ := bind_ok h
  obtain ⟨b, h2, h⟩ := bind_ok h
  obtain ⟨c, h3, h⟩ := bind_ok h
  cases h
  exact ⟨rd64_lt hb h1, rd64_lt hb h2, rd64_lt hb h3⟩

theorem blocksOf_wf : ∀ (n : Nat) (mem : List Nat), (∀ x ∈ mem, x < 256) → (blocksOf n mem).length = n ∧
    ∀ b ∈ blocksOf n mem, b.firstLhs < 2 ^ 64 ∧ b.startOffset < 2 ^ 64
  | 0, _, _ => ⟨rfl, fun b hb => by cases hb⟩
  | n + 1, mem, h => by
    obtain ⟨h1, h2⟩ := blocksOf_wf n (mem.drop 16) (bytes_drop h _)
    simp only [blocksOf, List.length_cons, List.mem_cons]
    refine ⟨by omega, ?_⟩
    rintro b (rfl | hb)
    · exact ⟨ofLE8_lt _ (bytes_take h _) (by rw [List.length_take]; omega),
        ofLE8_lt _ (bytes_take (bytes_drop h _) _) (by rw [List.length_take]; omega)⟩
    · exact h2 b hb

theorem blocks_create_wf {buf : List Nat} (hb : ∀ x ∈ buf, x < 256) {m : Blocks} (h : Blocks.create buf = .ok m) : m.WF := by
  unfold Blocks.create at h
  obtain ⟨a, h1, h⟩ := bind_ok h
  obtain ⟨b, h2, h⟩ := bind_ok h
  obtain ⟨c, h3, h⟩ := bind_ok h
  obtain ⟨mem, h4, h⟩ := bind_ok h
  cases h
  obtain ⟨h5, h6⟩ := blocksOf_wf c mem (by rw [(peek_ok h4).1]; exact bytes_take (bytes_drop hb _) _)
  exact ⟨rd64_lt hb h1, rd64_lt hb h2, by rw [h5]; exact rd64_lt hb h3, h6⟩

theorem default_wf : Blocks.default.WF := by unfold Blocks.WF; decide

theorem readEntries_adds : ∀ (n : Nat) (s : Index) (buf : List Nat) (t : Index) (r : List Nat), (∀ x ∈ buf, x < 256) →
    readEntries n s buf = .ok (t, r) →
    ∃ adds : List Add, adds.length = n ∧ addAll s adds = .ok t ∧ (∀ a ∈ adds, a.1.WF ∧ a.2.WF) ∧ ∀ x ∈ r, x < 256
  | 0, s, buf, t, r, hb, h => by cases h; exact ⟨[], rfl, rfl, fun a ha => absurd ha List.not_mem_nil, hb⟩
  | n + 1, s, buf, t, r, hb, h => by
    unfold readEntries at h
    obtain ⟨rmd, h1, h⟩ := bind_ok h
    have hw := full_create_wf hb h1
    have hb' := bytes_drop hb rmd.bytesRequired
    by_cases hbl : rmd.hasBlocks = true
    · simp only [hbl, if_true] at h
      obtain ⟨b, h2, h⟩ := bind_ok h
      obtain ⟨s1, h3, h⟩ := bind_ok h
      obtain ⟨adds, e1, e2, e3, e4⟩ := readEntries_adds n s1 _ t r (bytes_drop hb' b.bytesRequired) h
      refine ⟨(rmd, b) :: adds, by simp [e1], by simp only [addAll, h3, Outcome.bind, e2], ?_, e4⟩
      intro a ha
      rcases List.mem_cons.mp ha with rfl | ha
      · exact ⟨hw, blocks_create_wf hb' h2⟩
      · exact e3 a ha
    · simp only [hbl, if_false, Bool.false_eq_true] at h
      obtain ⟨s1, h3, h⟩ := bind_ok h
      obtain ⟨adds, e1, e2, e3, e4⟩ := readEntries_adds n s1 _ t r hb' h
      refine ⟨(rmd, Blocks.default) :: adds, by simp [e1], by simp only [addAll, h3, Outcome.bind, e2], ?_, e4⟩
      intro a ha
      rcases List.mem_cons.mp ha with rfl | ha
      · exact ⟨hw, default_wf⟩
      · exact e3 a ha

theorem set_length {α : Type} (m : Map α) (k : Nat) (v : α) : (m.set k v).length ≤ m.length + 1 := by
  simp only [Map.set, List.length_cons]
  have := List.length_filter_le (fun x : Nat × α => x.1 != k) m
  omega

theorem addAll_sizes : ∀ (adds : List Add) (s t : Index) (m : Map Full), s.data = .sparse m → addAll s adds = .ok t →
    (∀ a ∈ adds, a.1.WF ∧ a.2.WF) → s.offsetAfter < 2 ^ 64 →
    t.name = s.name ∧ t.offsetAfter < 2 ^ 64 ∧ t.blockData.length ≤ s.blockData.length + adds.length ∧
      ∃ m', t.data = .sparse m' ∧ m'.length ≤ m.length + adds.length
  | [], s, t, m, hm, h, _, ho => by cases h; exact ⟨rfl, ho, by simp, m, hm, by simp⟩
  | a :: adds, s, t, m, hm, h, hwf, ho => by
    simp only [addAll] at h
    obtain ⟨s1, h1, h⟩ := bind_ok h
    unfold Index.add at h1
    rw [hm] at h1
    simp only [Data.set, Outcome.bind] at h1
    have h1 := (Outcome.ok.inj h1).symm
    have hoff : s1.offsetAfter < 2 ^ 64 := by
      rw [h1]
      have := (hwf a List.mem_cons_self).2.2.1
      have h3 : (a.1.start + a.1.nofBytes) % 2 ^ 64 < 2 ^ 64 := Nat.mod_lt _ (by omega)
      simp only [Index.addPersistent]
      generalize (a.1.start + a.1.nofBytes) % 2 ^ 64 = y at h3 ⊢
      repeat' split
      all_goals omega
    have hbd : s1.blockData.length ≤ s.blockData.length + 1 := by
      rw [h1]
      simp only [Index.addPersistent]
      split
      · exact set_length _ _ _
      · omega
    obtain ⟨e1, e2, e3, m', e4, e5⟩ := addAll_sizes adds s1 t (m.set a.1.relId a.1) (by rw [h1]; rfl) h
      (fun x hx => hwf x (List.mem_cons_of_mem _ hx)) hoff
    have := set_length m a.1.relId a.1
    simp only [List.length_cons]
    exact ⟨by rw [e1, h1]; rfl, e2, by omega, m', e4, by omega⟩

theorem read_sparse {old : List Nat} (hb : ∀ x ∈ old, x < 256) {t : Index} (h : Index.create none old = .ok t) :
    ∃ adds m, Inv t adds ∧ t.data = .sparse m ∧ (∀ a ∈ adds, a.1.WF ∧ a.2.WF) ∧ t.Fits := by
  unfold Index.create at h
  obtain ⟨v, -, h⟩ := bind_ok h
  have b1 := bytes_drop hb v.2
  simp only at h
  generalize old.drop v.2 = buf1 at h b1
  obtain ⟨nl, n1, h⟩ := bind_ok h
  have b2 := bytes_drop b1 8
  generalize buf1.drop 8 = buf2 at h b2
  obtain ⟨name, n2, h⟩ := bind_ok h
  have b3 := bytes_drop b2 nl
  generalize buf2.drop nl = buf3 at h b3
  obtain ⟨nof, n3, h⟩ := bind_ok h
  have b4 := bytes_drop b3 8
  generalize buf3.drop 8 = buf4 at h b4
  obtain ⟨off, n4, h⟩ := bind_ok h
  have b5 := bytes_drop b4 8
  generalize buf4.drop 8 = buf5 at h b5
  obtain ⟨⟨t0, r⟩, n5, h⟩ := bind_ok h
  obtain ⟨adds, a1, a2, a3, a4⟩ := readEntries_adds nof _ buf5 t0 r b5 n5
  have hnof := rd64_lt b3 n3
  obtain ⟨c1, c2, c3, m, c4, c5⟩ := addAll_sizes adds _ t0 [] rfl a2 a3 (rd64_lt b4 n4)
  have hi0 : Inv { Index.fresh (.sparse []) with name := name, offsetAfter := off } [] :=
    ⟨⟨by simp, fun _ => rfl⟩, fun id a h => absurd h (by simp [last, lastFor]), by simp [Index.fresh], by simp [Index.fresh], by simp⟩
  have hi := (inv_addAll hi0 adds a2).1
  rw [List.nil_append] at hi
  have hname : t0.name.length < 2 ^ 64 := by
    rw [c1]
    show name.length < 2 ^ 64
    rw [(peek_ok n2).2]
    exact rd64_lt b1 n1
  have hsz : t0.data.size < 2 ^ 64 := by
    rw [c4]
    show m.length < 2 ^ 64
    simp only [List.length_nil] at c5
    omega
  have hbd : t0.blockData.length < 2 ^ 64 := by
    have : (Index.fresh (.sparse [])).blockData.length = 0 := rfl
    simp only [Index.fresh, List.length_nil] at c3
    omega
  have stats : ∀ e b k, e < 2 ^ 64 → b < 2 ^ 64 → k < 2 ^ 64 → t = { t0 with totalElements := e, totalBytes := b, totalBlocks := k } →
      ∃ adds m, Inv t adds ∧ t.data = .sparse m ∧ (∀ a ∈ adds, a.1.WF ∧ a.2.WF) ∧ t.Fits := by
    rintro e b k he hb hk rfl
    exact ⟨adds, m, ⟨hi.data, hi.blocks, hi.bkeys, hi.bprov, hi.off⟩, c4, a3, hname, hsz, c2, hbd, he, hb, hk⟩
  by_cases hv : v.1 ≥ V_BLOCK_LIST_AND_STATISTICS
  · rw [if_pos hv] at h
    obtain ⟨e, s1, h⟩ := bind_ok h
    obtain ⟨b, s2, h⟩ := bind_ok h
    obtain ⟨k, s3, h⟩ := bind_ok h
    exact stats e b k (rd64_lt a4 s1) (rd64_lt (bytes_drop a4 8) s2) (rd64_lt (bytes_drop (bytes_drop a4 8) 8) s3)
      (Outcome.ok.inj h).symm
  · rw [if_neg hv] at h
    exact stats _ _ _ (Nat.mod_lt _ (by omega)) (Nat.mod_lt _ (by omega)) (Nat.mod_lt _ (by omega)) (Outcome.ok.inj h).symm

theorem metaPart_ok {old part : List Nat} (hb : ∀ x ∈ old, x < 256) (hp : metaPart old = .ok part) :
    ∃ k, k = ofLE (old.drop (old.length - 8)) ∧ k ≤ old.length ∧ k < 2 ^ 64 ∧ (∀ x ∈ part, x < 256) ∧
      ∀ u, writeNewPermutation old u = u.appendToFile (old.take k) := by
  unfold metaPart at hp
  by_cases h8 : old.length < 8
  · rw [if_pos h8] at hp; cases hp
  rw [if_neg h8] at hp
  have hlast : pread old (old.length - 8) 8 = old.drop (old.length - 8) := by
    unfold pread
    exact List.take_of_length_le (by rw [List.length_drop]; omega)
  simp only at hp
  rw [hlast] at hp
  have hk64 : ofLE (old.drop (old.length - 8)) < 2 ^ 64 := ofLE8_lt _ (bytes_drop hb _) (by rw [List.length_drop]; omega)
  generalize hk : ofLE (old.drop (old.length - 8)) = k at hp hk64
  by_cases hlt : old.length - 8 < k
  · rw [if_pos hlt] at hp; cases hp
  rw [if_neg hlt] at hp
  refine ⟨k, rfl, by omega, hk64, by cases hp; exact bytes_take (bytes_drop hb _) _, fun u => ?_⟩
  unfold writeNewPermutation
  rw [if_neg h8, hlast, hk, copyChunks_eq]
  simp [pread]

/-- **Files with hash maps, also of older versions, that are converted to hash maps** are written anew: the new file begins with the same
bytes, and everything that is read from it, with the statistics, agrees with what is read from the old file. -/
theorem C84_upgrade (old : List Nat) (hb : ∀ x ∈ old, x < 256) (s : Index) (hs : Index.readFromFile none old = .ok s)
    (verify : Bool) :
    ∃ new, convertToHmap old verify = .ok new ∧
      (∃ k, k = ofLE (old.drop (old.length - 8)) ∧ k ≤ old.length ∧ new.take k = old.take k) ∧
      ∃ t, Index.readFromFile none new = .ok t ∧ t.name = s.name ∧ t.offsetAfter = s.offsetAfter ∧
        t.totalElements = s.totalElements ∧ t.totalBytes = s.totalBytes ∧ t.totalBlocks = s.totalBlocks ∧
        ∀ id, t.data.exists id = s.data.exists id ∧ t.getRmd id = s.getRmd id := by
  have hs' := hs
  unfold Index.readFromFile at hs
  obtain ⟨part, hp, hc⟩ := bind_ok hs
  obtain ⟨k, hk, hkl, hk64, hpart, hw⟩ := metaPart_ok hb hp
  obtain ⟨adds, m, hinv, hm, hwf, hfits⟩ := read_sparse hpart hc
  have hlen : (old.take k).length = k := by rw [List.length_take]; omega
  obtain ⟨new, w1, w2, t, t1, t2, t3, t4, t5, t6, t7⟩ := sparse_reload_of_inv hinv hm hwf (old.take k) (by omega) s
    (reordered_refl s) hfits
  rw [hlen] at w2
  refine ⟨new, ?_, ⟨k, hk, hkl, w2⟩, t, t1, t2, t3, t4, t5, t6, fun id => ?_⟩
  · unfold convertToHmap
    rw [hs']
    simp only
    rw [hw, w1]
  · obtain ⟨f1, f2⟩ := lookup_of_data hinv.data hinv.blocks id (fun n vec h => by rw [hm] at h; cases h)
    obtain ⟨e1, e2⟩ := t7 id
    exact ⟨by rw [f1]; exact e1, by rw [f2]; exact e2⟩

theorem dense_not_sparse (s : Index) (size : Nat) (vec : List Full) (hd : s.data = .dense size vec) (file old : List Nat)
    (hfile : file.length < 2 ^ 64) (ho : s.appendToFile file = .ok old) : Index.readFromFile none old = .throw := by
  obtain ⟨r, hr⟩ : ∃ r, s.write = .ok (toLE 8 MAGIC_MMAP_VERSION ++ r) := by
    unfold Index.write
    simp only [hd, List.append_assoc]
    exact ⟨_, rfl⟩
  unfold Index.appendToFile at ho
  rw [hr] at ho
  have ho : old = file ++ (toLE 8 MAGIC_MMAP_VERSION ++ r) ++ toLE 8 file.length := (Outcome.ok.inj ho).symm
  unfold Index.readFromFile
  rw [ho, metaPart_append _ _ hfile]
  simp only [Outcome.bind]
  unfold Index.create parseMagic
  rw [rd64_zero _ _ (by decide)]
  rfl

/-- A file that was written for meta data in a vector is not taken for one with a hash map. -/
theorem C84_format (s : Index) (size : Nat) (vec' : List Full) (hd : s.data = .dense size vec') (file old : List Nat)
    (hfile : file.length < 2 ^ 64) (ho : s.appendToFile file = .ok old) (verify : Bool) :
    convertToHmap old verify = (readUnset old).bind fun m => (m.toHmap verify).bind fun h => h.appendToFile file := by
  obtain ⟨r, hr⟩ : ∃ r, s.write = .ok (toLE 8 MAGIC_MMAP_VERSION ++ r) := by
    unfold Index.write
    simp only [hd, List.append_assoc]
    exact ⟨_, rfl⟩
  unfold Index.appendToFile at ho
  rw [hr] at ho
  have ho : old = file ++ (toLE 8 MAGIC_MMAP_VERSION ++ r) ++ toLE 8 file.length := (Outcome.ok.inj ho).symm
  have hthrow : Index.readFromFile none old = .throw := by
    unfold Index.readFromFile
    rw [ho, metaPart_append _ _ hfile]
    simp only [Outcome.bind]
    unfold Index.create parseMagic
    rw [rd64_zero _ _ (by decide)]
    rfl
  unfold convertToHmap
  rw [hthrow]
  simp only
  congr 1
  funext m
  congr 1
  funext h
  rw [ho, C84_copied _ _ hfile]

/-- **Any file**: let any file of bytes, of the current or an older version, be read as meta data in a hash map without the id of empty
entries.  Then the conversion succeeds, the new file begins with the same bytes up to the meta data, and what is read from it agrees
for all ids with what was read from the old file; ids beyond the vector do not exist. Missing: the statistics. -/
theorem C84_file_partial (old : List Nat) (hb : ∀ x ∈ old, x < 256) (s : Index) (hs : Index.readFromFile none old = .ok s)
    (hid : s.data.exists (2 ^ 64 - 1) = .ok false) (verify : Bool) :
    ∃ u size vec new, s.toMmap verify = .ok u ∧ u.data = .dense size vec ∧ writeNewPermutation old u = .ok new ∧
      (∃ k, k = ofLE (old.drop (old.length - 8)) ∧ k ≤ old.length ∧ new.take k = old.take k) ∧
      ∃ t, Index.readFromFile (some vec) new = .ok t ∧ t.name = s.name ∧ t.offsetAfter = s.offsetAfter ∧
        t.totalElements = s.totalElements ∧
        (∀ id, id < vec.length → t.data.exists id = s.data.exists id ∧ t.getRmd id = s.getRmd id) ∧
        ∀ id, vec.length ≤ id → s.data.exists id = .ok false := by
  unfold Index.readFromFile at hs
  obtain ⟨part, hp, hc⟩ := bind_ok hs
  unfold metaPart at hp
  by_cases h8 : old.length < 8
  · rw [if_pos h8] at hp; cases hp
  rw [if_neg h8] at hp
  have hlast : pread old (old.length - 8) 8 = old.drop (old.length - 8) := by
    unfold pread
    exact List.take_of_length_le (by rw [List.length_drop]; omega)
  simp only at hp
  rw [hlast] at hp
  have hk64 : ofLE (old.drop (old.length - 8)) < 2 ^ 64 := ofLE8_lt _ (bytes_drop hb _) (by rw [List.length_drop]; omega)
  generalize hk : ofLE (old.drop (old.length - 8)) = k at hp hk64
  by_cases hlt : old.length - 8 < k
  · rw [if_pos hlt] at hp; cases hp
  rw [if_neg hlt] at hp
  have hpart : ∀ x ∈ part, x < 256 := by
    cases hp
    exact bytes_take (bytes_drop hb _) _
  obtain ⟨adds, m, hinv, hm, hwf, hfits⟩ := read_sparse hpart hc
  have look : ∀ id, s.data.exists id = .ok (last adds id).isSome ∧ s.getRmd id = lookupSpec adds id := fun id =>
    lookup_of_data hinv.data hinv.blocks id (fun n vec h => by rw [hm] at h; cases h)
  have hids : ∀ a ∈ adds, a.1.relId < 2 ^ 64 - 1 := by
    intro a ha
    have h1 := (hwf a ha).1.1
    by_cases h2 : a.1.relId = 2 ^ 64 - 1
    · obtain ⟨b, hb⟩ := last_isSome ha
      rw [h2] at hb
      have := (look (2 ^ 64 - 1)).1
      rw [hid, hb] at this
      cases this
    · omega
  have hlen : (old.take k).length = k := by rw [List.length_take]; omega
  obtain ⟨u, size, vec, new, h1, h2, h3, h4, h5, t, t1, t2, t3, t4, t5⟩ :=
    toMmap_of_inv adds hwf hids s hinv hm hfits verify (old.take k) (by omega)
  rw [hlen] at h4
  refine ⟨u, size, vec, new, h1, h2, ?_, ⟨k, rfl, by omega, h4⟩, t, t1, t2, t3, t4, fun id h => ?_, fun id h => ?_⟩
  · unfold writeNewPermutation
    rw [if_neg h8, hlast, hk, copyChunks_eq]
    simpa [pread] using h3
  · obtain ⟨e1, e2⟩ := t5 id h
    obtain ⟨f1, f2⟩ := look id
    exact ⟨by rw [f1]; exact e1, by rw [f2]; exact e2⟩
  · rw [(look id).1, last_none]
    · rfl
    · intro a ha hc
      have := h5 a ha
      omega

/-- **The whole conversion to a vector** of any file that is read as hash map -/
theorem C84_convert_partial (old : List Nat) (hb : ∀ x ∈ old, x < 256) (s : Index)
    (hs : Index.readFromFile none old = .ok s) (hid : s.data.exists (2 ^ 64 - 1) = .ok false) (verify : Bool) :
    ∃ vec new, convertToMmap old verify = .ok (some vec, some new) ∧
      (∃ k, k = ofLE (old.drop (old.length - 8)) ∧ k ≤ old.length ∧ new.take k = old.take k) ∧
      ∃ t, Index.readFromFile (some vec) new = .ok t ∧ t.name = s.name ∧ t.offsetAfter = s.offsetAfter ∧
        t.totalElements = s.totalElements ∧
        (∀ id, id < vec.length → t.data.exists id = s.data.exists id ∧ t.getRmd id = s.getRmd id) ∧
        ∀ id, vec.length ≤ id → s.data.exists id = .ok false := by
  obtain ⟨u, size, vec, new, h1, h2, h3, h4⟩ := C84_file_partial old hb s hs hid verify
  refine ⟨vec, new, ?_, h4⟩
  unfold convertToMmap
  rw [hs]
  simp only [h1, Outcome.bind, h3, Outcome.map, h2, Data.vector]

theorem write_dense (s : Index) (size : Nat) (vec : List Full) (hd : s.data = .dense size vec) :
    s.write = .ok (toLE 8 MAGIC_MMAP_VERSION ++ toLE 8 V_CURRENT ++ toLE 8 s.name.length ++ s.name ++
        toLE 8 s.data.size ++ toLE 8 s.offsetAfter ++
        (toLE 8 s.blockData.length ++ s.blockData.flatMap fun e => toLE 8 e.1 ++ e.2.write) ++
        (toLE 8 s.totalElements ++ toLE 8 s.totalBytes ++ toLE 8 s.totalBlocks)) := by
  unfold Index.write
  simp only [hd]
  rfl

/-- Meta data without blocks is read with any vector. -/
theorem read_noBlocks (w : List Full) (s : Index) (size : Nat) (vec : List Full) (hd : s.data = .dense size vec) (hbl : s.blockData = [])
    (hfits : s.Fits) (file : List Nat) (hfile : file.length < 2 ^ 64) : ∃ old, s.appendToFile file = .ok old ∧
      old.take file.length = file ∧
      Index.readFromFile (some w) old = .ok ⟨.dense size w, [], s.offsetAfter, s.name, s.totalElements, s.totalBytes, s.totalBlocks⟩ := by
  have hw := write_dense s size vec hd
  have hbody : readRelations (some w) V_CURRENT s.data.size s.name s.offsetAfter
      ((toLE 8 s.blockData.length ++ s.blockData.flatMap fun e => toLE 8 e.1 ++ e.2.write) ++
        (toLE 8 s.totalElements ++ toLE 8 s.totalBytes ++ toLE 8 s.totalBlocks)) =
      .ok ({ Index.fresh (.dense s.data.size w) with name := s.name, offsetAfter := s.offsetAfter },
        toLE 8 s.totalElements ++ toLE 8 s.totalBytes ++ toLE 8 s.totalBlocks) := by
    unfold readRelations
    simp only
    rw [if_neg (by decide), List.append_assoc, rd64_zero _ _ hfits.2.2.2.1]
    simp only [Outcome.bind]
    rw [List.drop_left' (length_toLE 8 _), hbl]
    rfl
  obtain ⟨out, ho1, ho2, ho3⟩ := reload_frame file hfile hw (create_frame (some w) s hfits _ _ hbody MAGIC_MMAP_VERSION rfl)
  refine ⟨out, ho1, ho2, ?_⟩
  rw [ho3, hd]
  rfl

/-- A vector that is not set up, no blocks: the meta data is read without any relation. -/
theorem readUnset_empty (s : Index) (size : Nat) (vec : List Full) (hd : s.data = .dense size vec) (hbl : s.blockData = [])
    (hfits : s.Fits) (file old : List Nat) (hfile : file.length < 2 ^ 64) (ho : s.appendToFile file = .ok old) :
    readUnset old = .ok ⟨.dense size [], [], s.offsetAfter, s.name, s.totalElements, s.totalBytes, s.totalBlocks⟩ := by
  obtain ⟨out, ho1, _, ho3⟩ := read_noBlocks [] s size vec hd hbl hfits file hfile
  rw [ho] at ho1
  cases ho1
  unfold readUnset
  rw [ho3]

/-- Disagreement: a file of the old format for vectors, without version, is written anew without its block data and with wrong statistics,
so that the meta data of relations with blocks cannot be read any more (`end()` is dereferenced), whatever follows the header (`body`: the block data of the relations that have blocks, in the order of the vector). -/
theorem C84_old_vector_violated (name : List Nat) (hname : name.length < 2 ^ 64) (size off : Nat) (hsize : size < 2 ^ 64)
    (hoff : off < 2 ^ 64) (body file : List Nat) (hfile : file.length < 2 ^ 64) (verify : Bool) :
    ∃ new, convertToMmap (file ++ (toLE 8 MAGIC_MMAP ++ (toLE 8 name.length ++ (name ++ (toLE 8 size ++ (toLE 8 off ++ body))))) ++
        toLE 8 file.length) verify = .ok (none, some new) ∧ new.take file.length = file ∧
      ∀ vec, ∃ t, Index.readFromFile (some vec) new = .ok t ∧ t.data = .dense size vec ∧ t.totalElements = 0 ∧
        ∀ id r, vec[id]? = some r → r ≠ Full.empty → r.hasBlocks = true → t.getRmd id = .ub := by
  have hthrow : Index.readFromFile none (file ++ (toLE 8 MAGIC_MMAP ++ (toLE 8 name.length ++ (name ++ (toLE 8 size ++ (toLE 8 off ++
      body))))) ++ toLE 8 file.length) = .throw := by
    unfold Index.readFromFile
    rw [metaPart_append _ _ hfile]
    simp only [Outcome.bind]
    unfold Index.create parseMagic
    rw [rd64_zero _ _ (by decide)]
    rfl
  have hk : parseMagicKind true MAGIC_MMAP = .ok (false, 8) := by decide
  have hr : readUnset (file ++ (toLE 8 MAGIC_MMAP ++ (toLE 8 name.length ++ (name ++ (toLE 8 size ++ (toLE 8 off ++ body))))) ++
      toLE 8 file.length) = .ok ⟨.dense size [], [], off, name, 0, 0, 0⟩ := by
    unfold readUnset Index.readFromFile
    rw [metaPart_append _ _ hfile]
    simp only [Outcome.bind]
    unfold Index.create parseMagic
    rw [rd64_zero _ _ (by decide)]
    simp only [Outcome.bind, Option.isSome_some, hk, Bool.not_false, if_true]
    rw [List.drop_left' (length_toLE 8 _), rd64_zero _ _ hname]
    simp only
    rw [List.drop_left' (length_toLE 8 _), peek_zero _ _ _ rfl]
    simp only
    rw [List.drop_left' rfl, rd64_zero _ _ hsize]
    simp only
    rw [List.drop_left' (length_toLE 8 _), rd64_zero _ _ hoff]
    simp only
    rw [List.drop_left' (length_toLE 8 _)]
    rfl
  have hv : versionOf (file ++ (toLE 8 MAGIC_MMAP ++ (toLE 8 name.length ++ (name ++ (toLE 8 size ++ (toLE 8 off ++ body))))) ++
      toLE 8 file.length) = .ok V_NO_VERSION := by
    unfold versionOf
    rw [metaPart_append _ _ hfile]
    simp only [Outcome.bind]
    unfold parseMagic
    rw [rd64_zero _ _ (by decide)]
    simp only [Outcome.bind, hk, Bool.not_false, if_true]
    rfl
  have hfits : Index.Fits ⟨.dense size [], [], off, name, 0, 0, 0⟩ := ⟨hname, hsize, hoff, by simp, by simp, by simp, by simp⟩
  have R := fun w => read_noBlocks w ⟨.dense size [], [], off, name, 0, 0, 0⟩ size [] rfl rfl hfits file hfile
  obtain ⟨new, n1, n2, _⟩ := R []
  refine ⟨new, ?_, n2, fun vec => ?_⟩
  · unfold convertToMmap
    rw [hthrow, hr]
    simp only [Outcome.bind, hv]
    rw [if_pos (by decide), C84_copied _ _ hfile, n1]
    rfl
  · obtain ⟨new', n1', _, n3'⟩ := R vec
    rw [n1] at n1'
    cases n1'
    refine ⟨_, n3', rfl, rfl, fun id r h1 h2 h3 => ?_⟩
    unfold Index.getRmd
    have hg : (Data.dense size vec).getAsserted id = .ok r := by
      simp [Data.getAsserted, Outcome.read, h1, Outcome.bind, h2]
    simp only [hg, Outcome.bind, h3, if_true]
    rfl

/-- Disagreement: a permutation with a vector and without blocks is converted to a hash map without any relation, and the verification
passes: the vector is never set up. -/
theorem C84_lost_violated (s : Index) (size : Nat) (vec : List Full) (hd : s.data = .dense size vec) (hbl : s.blockData = [])
    (hfits : s.Fits) (file old : List Nat) (hfile : file.length < 2 ^ 64) (ho : s.appendToFile file = .ok old) (verify : Bool) :
    ∃ new t, convertToHmap old verify = .ok new ∧ Index.readFromFile none new = .ok t ∧ ∀ id, t.data.exists id = .ok false := by
  have hr := readUnset_empty s size vec hd hbl hfits file old hfile ho
  have hi : Inv ⟨.sparse [], [], s.offsetAfter, s.name, s.totalElements, 0, 0⟩ [] :=
    ⟨⟨by simp, fun _ => rfl⟩, fun id a h => absurd h (by simp [last, lastFor]), by simp, by simp, by simp⟩
  obtain ⟨new, w1, _, t, t1, _, _, _, _, _, t7⟩ := sparse_reload_of_inv hi rfl (by simp) file hfile _ (reordered_refl _)
    ⟨hfits.1, by simp [Data.size], hfits.2.2.1, by simp, hfits.2.2.2.2.1, by simp, by simp⟩
  refine ⟨new, t, ?_, t1, fun id => (t7 id).1⟩
  rw [C84_format s size vec hd file old hfile ho verify, hr]
  cases verify <;> exact w1

/-- Reading the header before a relation part that fails -/
theorem create_frame_ub (vec : Option (List Full)) (s : Index) (hf : s.Fits) (body : List Nat)
    (hbody : readRelations vec V_CURRENT s.data.size s.name s.offsetAfter body = .ub)
    (magic : Nat) (hm : magic = if vec.isSome then MAGIC_MMAP_VERSION else MAGIC_SPARSE_VERSION) :
    Index.create vec (toLE 8 magic ++ toLE 8 V_CURRENT ++ toLE 8 s.name.length ++ s.name ++ toLE 8 s.data.size ++
      toLE 8 s.offsetAfter ++ body) = .ub := by
  obtain ⟨f1, f2, f3, _⟩ := hf
  have hmagic : magic < 2 ^ 64 := by
    rw [hm]; split <;> simp only [MAGIC_MMAP_VERSION, MAGIC_SPARSE_VERSION] <;> omega
  have hkind : parseMagicKind vec.isSome magic = .ok (true, 8) := by
    rw [hm]
    cases vec <;> (simp only [Option.isSome_none, Option.isSome_some]; decide)
  have hv : V_CURRENT < 2 ^ 64 := by decide
  simp only [List.append_assoc]
  unfold Index.create parseMagic
  rw [rd64_zero _ _ hmagic]
  simp only [Outcome.bind, hkind, Bool.not_true, Bool.false_eq_true, if_false]
  have h8 : ∀ x r, rd64 (toLE 8 x ++ r) 8 = rd64 r 0 := fun x r => rd64_8 x r 0
  rw [h8, rd64_zero _ _ hv]
  simp only [gt_iff_lt, Nat.lt_irrefl, if_false]
  have hdrop : ∀ (x y : Nat) r, (toLE 8 x ++ (toLE 8 y ++ r)).drop (8 + 8) = r := by
    intro x y r; rw [← List.append_assoc]; exact List.drop_left' (by simp)
  rw [hdrop, rd64_zero _ _ f1]
  simp only
  rw [List.drop_left' (length_toLE 8 _), peek_zero _ _ _ rfl]
  simp only
  rw [List.drop_left' rfl, rd64_zero _ _ f2]
  simp only
  rw [List.drop_left' (length_toLE 8 _), rd64_zero _ _ f3]
  simp only
  rw [List.drop_left' (length_toLE 8 _), hbody]

/-- A vector that is not set up, some blocks: an exception -/
theorem readUnset_blocks (s : Index) (size : Nat) (vec : List Full) (hd : s.data = .dense size vec) (hbl : s.blockData ≠ [])
    (hwf : ∀ e ∈ s.blockData, e.1 < 2 ^ 64 ∧ e.2.WF) (hfits : s.Fits) (file old : List Nat) (hfile : file.length < 2 ^ 64)
    (ho : s.appendToFile file = .ok old) : readUnset old = .throw := by
  have hw := write_dense s size vec hd
  obtain ⟨e, es, he⟩ : ∃ e es, s.blockData = e :: es := by
    cases h : s.blockData with
    | nil => exact absurd h hbl
    | cons e es => exact ⟨e, es, rfl⟩
  obtain ⟨h1, h2⟩ := hwf e (by rw [he]; exact List.mem_cons_self)
  have hbody : readRelations (some []) V_CURRENT s.data.size s.name s.offsetAfter
      ((toLE 8 s.blockData.length ++ s.blockData.flatMap fun e => toLE 8 e.1 ++ e.2.write) ++
        (toLE 8 s.totalElements ++ toLE 8 s.totalBytes ++ toLE 8 s.totalBlocks)) = .ub := by
    unfold readRelations
    simp only
    rw [if_neg (by decide), List.append_assoc, rd64_zero _ _ hfits.2.2.2.1]
    simp only [Outcome.bind]
    rw [List.drop_left' (length_toLE 8 _), he]
    simp only [List.length_cons, List.flatMap_cons, List.append_assoc, readBlockData]
    rw [rd64_zero _ _ h1]
    simp only [Outcome.bind]
    rw [List.drop_left' (length_toLE 8 _), blocks_roundtrip _ h2]
    simp [Index.fresh, Data.getAsserted]
  have hc := create_frame_ub (some []) s hfits _ hbody MAGIC_MMAP_VERSION rfl
  unfold Index.appendToFile at ho
  rw [hw] at ho
  have ho := (Outcome.ok.inj ho).symm
  unfold readUnset Index.readFromFile
  rw [ho, metaPart_append _ _ hfile]
  simp only [Outcome.bind]
  rw [List.append_assoc]
  rw [hc]

/-- Disagreement: for permutations with a vector and blocks both conversions fail, also if nothing is to be converted. -/
theorem C84_blocks_violated (s : Index) (size : Nat) (vec : List Full) (hd : s.data = .dense size vec) (hbl : s.blockData ≠ [])
    (hwf : ∀ e ∈ s.blockData, e.1 < 2 ^ 64 ∧ e.2.WF) (hfits : s.Fits) (file old : List Nat) (hfile : file.length < 2 ^ 64)
    (ho : s.appendToFile file = .ok old) (verify : Bool) : convertToHmap old verify = .throw ∧ convertToMmap old verify = .throw := by
  have hr := readUnset_blocks s size vec hd hbl hwf hfits file old hfile ho
  refine ⟨by rw [C84_format s size vec hd file old hfile ho verify, hr]; rfl, ?_⟩
  have hthrow := dense_not_sparse s size vec hd file old hfile ho
  unfold convertToMmap
  rw [hthrow, hr]
  rfl

/-- **Nothing is written for files that have a vector, no blocks and the current version**, so they stay as they are.  Missing: files with
blocks, see `C84_blocks_violated`. -/
theorem C84_current_partial (s : Index) (size : Nat) (vec : List Full) (hd : s.data = .dense size vec) (hbl : s.blockData = [])
    (hfits : s.Fits) (file old : List Nat) (hfile : file.length < 2 ^ 64) (ho : s.appendToFile file = .ok old) (verify : Bool) :
    convertToMmap old verify = .ok (none, none) := by
  have hr := readUnset_empty s size vec hd hbl hfits file old hfile ho
  have hthrow := dense_not_sparse s size vec hd file old hfile ho
  obtain ⟨r, hw⟩ : ∃ r, s.write = .ok (toLE 8 MAGIC_MMAP_VERSION ++ (toLE 8 V_CURRENT ++ r)) := by
    unfold Index.write
    simp only [hd, List.append_assoc]
    exact ⟨_, rfl⟩
  unfold Index.appendToFile at ho
  rw [hw] at ho
  have ho : old = file ++ (toLE 8 MAGIC_MMAP_VERSION ++ (toLE 8 V_CURRENT ++ r)) ++ toLE 8 file.length := (Outcome.ok.inj ho).symm
  have hv : versionOf old = .ok V_CURRENT := by
    unfold versionOf
    rw [ho, metaPart_append _ _ hfile]
    simp only [Outcome.bind]
    unfold parseMagic
    rw [rd64_zero _ _ (by decide)]
    have hk : parseMagicKind true MAGIC_MMAP_VERSION = .ok (true, 8) := by decide
    have h8 : rd64 (toLE 8 MAGIC_MMAP_VERSION ++ (toLE 8 V_CURRENT ++ r)) 8 = .ok V_CURRENT :=
      (rd64_8 _ _ 0).trans (rd64_zero _ _ (by decide))
    simp only [Outcome.bind, hk, Bool.not_true, Bool.false_eq_true, if_false, h8]
    rw [if_neg (by omega)]
    rfl
  unfold convertToMmap
  rw [hthrow, hr]
  simp only [Outcome.bind, hv]
  rw [if_neg (by omega)]

/-- The bytes of a list of relations in a file with a hash map -/
def relationBytes (adds : List Add) : List Nat := adds.flatMap fun a => a.1.write ++ if a.1.hasBlocks then a.2.write else []

/-- What is added for a relation that is read -/
def normAdd (a : Add) : Add := (a.1, if a.1.hasBlocks then a.2 else Blocks.default)

theorem readEntries_bytes : ∀ (adds : List Add) (s : Index) (r : List Nat), (∀ a ∈ adds, a.1.WF ∧ a.2.WF) →
    readEntries adds.length s (relationBytes adds ++ r) = (addAll s (adds.map normAdd)).bind fun t => .ok (t, r)
  | [], s, r, _ => rfl
  | a :: adds, s, r, h => by
    obtain ⟨h1, h2⟩ := h a List.mem_cons_self
    have ih := fun s => readEntries_bytes adds s r (fun x hx => h x (List.mem_cons_of_mem _ hx))
    have e : relationBytes (a :: adds) ++ r = a.1.write ++ ((if a.1.hasBlocks then a.2.write else []) ++ (relationBytes adds ++ r)) := by
      simp only [relationBytes, List.flatMap_cons, List.append_assoc]
    simp only [List.length_cons, readEntries, e, full_roundtrip a.1 h1, Outcome.bind, List.drop_left' (full_length a.1), List.map_cons, addAll]
    by_cases hb : a.1.hasBlocks = true
    · simp only [hb, if_true, blocks_roundtrip a.2 h2, List.drop_left' (blocks_length a.2), normAdd]
      cases hs : s.add a.1 a.2 with
      | ok s1 => exact ih s1
      | throw => rfl
      | ub => rfl
      | diverge => rfl
    · simp only [hb, Bool.false_eq_true, if_false, List.nil_append, normAdd]
      cases hs : s.add a.1 Blocks.default with
      | ok s1 => exact ih s1
      | throw => rfl
      | ub => rfl
      | diverge => rfl

theorem last_norm (adds : List Add) (id : Nat) : last (adds.map normAdd) id = (last adds id).map normAdd := by
  unfold last lastFor
  rw [List.filter_map, List.getLast?_map]
  rfl

theorem lookup_norm (adds : List Add) (id : Nat) : lookupSpec (adds.map normAdd) id = lookupSpec adds id := by
  unfold lookupSpec
  rw [last_norm]
  cases last adds id with
  | none => rfl
  | some a =>
    simp only [Option.map_some, normAdd]
    by_cases h : a.1.hasBlocks = true <;> simp [h]

/-- **The oldest format**, without magic number, version and statistics, is read: all relations are found with their meta data. Hence
`C84_upgrade` and `C84_file_partial` apply to such files. -/
theorem C84_oldest (adds : List Add) (hwf : ∀ a ∈ adds, a.1.WF ∧ a.2.WF) (hn : adds.length < 2 ^ 64) (name : List Nat)
    (hname : name.length < 2 ^ 63) (off : Nat) (hoff : off < 2 ^ 64) (file : List Nat) (hfile : file.length < 2 ^ 64) :
    ∃ t, Index.readFromFile none (file ++ (toLE 8 name.length ++ (name ++ (toLE 8 adds.length ++ (toLE 8 off ++ relationBytes adds)))) ++
        toLE 8 file.length) = .ok t ∧ t.name = name ∧
      ∀ id, t.data.exists id = .ok (lastFor (fun a : Add => a.1.relId) adds id).isSome ∧
        t.getRmd id = match lastFor (fun a : Add => a.1.relId) adds id with
          | none => .throw
          | some a => .ok (a.1, if a.1.hasBlocks then some a.2 else none) := by
  have hkind : parseMagicKind false name.length = .ok (false, 0) := by
    unfold parseMagicKind MAGIC_MMAP MAGIC_MMAP_VERSION MAGIC_SPARSE MAGIC_SPARSE_VERSION
    rw [if_pos (by rfl), if_neg (by omega), if_neg (by omega), if_neg (by omega)]
  obtain ⟨t0, h1, m, h2⟩ := addAll_sparse (s := { Index.fresh (.sparse []) with name := name, offsetAfter := off }) ⟨_, rfl⟩
    (adds.map normAdd)
  have hi0 : Inv { Index.fresh (.sparse []) with name := name, offsetAfter := off } [] :=
    ⟨⟨by simp, fun _ => rfl⟩, fun id a h => absurd h (by simp [last, lastFor]), by simp [Index.fresh], by simp [Index.fresh], by simp⟩
  obtain ⟨hi, hnm, _⟩ := inv_addAll hi0 (adds.map normAdd) h1
  rw [List.nil_append] at hi
  have hrd := readEntries_bytes adds { Index.fresh (.sparse []) with name := name, offsetAfter := off } [] hwf
  rw [h1, List.append_nil] at hrd
  refine ⟨t0.calcStats, ?_, hnm, fun id => ?_⟩
  · unfold Index.readFromFile
    rw [metaPart_append _ _ hfile]
    simp only [Outcome.bind]
    unfold Index.create parseMagic
    rw [rd64_zero _ _ (by omega)]
    simp only [Outcome.bind, Option.isSome_none, hkind, Bool.not_false, if_true, List.drop_zero]
    rw [rd64_zero _ _ (by omega)]
    simp only
    rw [List.drop_left' (length_toLE 8 _), peek_zero _ _ _ rfl]
    simp only
    rw [List.drop_left' rfl, rd64_zero _ _ hn]
    simp only
    rw [List.drop_left' (length_toLE 8 _), rd64_zero _ _ hoff]
    simp only
    rw [List.drop_left' (length_toLE 8 _)]
    simp only [readRelations, hrd, Outcome.bind]
    rw [if_neg (by decide)]
  · obtain ⟨e1, e2⟩ := lookup_of_data (s := t0.calcStats) hi.data hi.blocks id (fun n vec h => by
      have h : t0.data = .dense n vec := h
      rw [h2] at h; cases h)
    refine ⟨?_, by rw [e2, lookup_norm]; rfl⟩
    rw [e1, last_norm, Option.isSome_map]
    rfl

/-- The total size and the number of blocks of converted meta data are always 0. -/
theorem C84_statistics (s u : Index) (verify : Bool) (h : s.toMmap verify = .ok u ∨ s.toHmap verify = .ok u) :
    u.totalBytes = 0 ∧ u.totalBlocks = 0 := by
  have H : ∀ (x : Outcome Data) (y : Data → Outcome Unit), (x.bind fun d => (y d).bind fun _ => .ok (copyMembers s d)) = .ok u →
      u.totalBytes = 0 ∧ u.totalBlocks = 0 := by
    intro x y e
    cases x with
    | ok d =>
      simp only [Outcome.bind] at e
      cases hy : y d with
      | ok _ => rw [hy] at e; cases e; exact ⟨rfl, rfl⟩
      | throw => rw [hy] at e; cases e
      | ub => rw [hy] at e; cases e
      | diverge => rw [hy] at e; cases e
    | throw => cases e
    | ub => cases e
    | diverge => cases e
  rcases h with h | h
  · unfold Index.toMmap at h
    cases hd : s.data with
    | dense n v => rw [hd] at h; cases h
    | sparse m => rw [hd] at h; exact H _ _ h
  · unfold Index.toHmap at h
    cases hd : s.data with
    | sparse m => rw [hd] at h; cases h
    | dense n v => rw [hd] at h; exact H _ _ h

/-- **Verification** finds every difference: if it passes, both maps have the same entries. -/
theorem C84_verify (old new : Data) (h : verified true old new = .ok ()) :
    (∀ e ∈ new.entries, old.getAsserted e.1 = .ok e.2) ∧ (∀ e ∈ old.entries, new.getAsserted e.1 = .ok e.2) := by
  have H : ∀ (d : Data) (es : List (Nat × Full)), verifyAll d es = .ok () → ∀ e ∈ es, d.getAsserted e.1 = .ok e.2 := by
    intro d es
    induction es with
    | nil => intro _ e he; cases he
    | cons x es ih =>
      intro h e he
      unfold verifyAll at h
      cases hg : d.getAsserted x.1 with
      | ok v =>
        rw [hg] at h
        simp only [Outcome.bind] at h
        by_cases hv : v = x.2
        · rw [if_pos hv] at h
          rcases List.mem_cons.mp he with rfl | he
          · rw [hg, hv]
          · exact ih h e he
        · rw [if_neg hv] at h; cases h
      | throw => rw [hg] at h; cases h
      | ub => rw [hg] at h; cases h
      | diverge => rw [hg] at h; cases h
  unfold verified at h
  rw [if_pos rfl] at h
  cases h1 : verifyAll old new.entries with
  | ok _ => rw [h1] at h; exact ⟨H _ _ h1, H _ _ h⟩
  | throw => rw [h1] at h; cases h
  | ub => rw [h1] at h; cases h
  | diverge => rw [h1] at h; cases h

/-! Examples -/

/-- two relations, one with blocks -/
def exAdds : List Add := [(Full.mk' 3 0 5 1 1 true false, Blocks.default), (Full.mk' 7 80 2 1 1 false true, ⟨130, 200, [⟨1, 130⟩]⟩)]

example : (∀ a ∈ exAdds, a.1.WF ∧ a.2.WF) ∧ (∀ a ∈ exAdds, a.1.relId < 2 ^ 64 - 1) ∧ (∀ a ∈ exAdds, a.1.relId < 8) := by
  unfold exAdds Full.WF Blocks.WF; decide

example : ∃ s, addAll (Index.fresh (.sparse [])) exAdds = .ok s ∧ s.Fits ∧ ∃ u size vec, s.toMmap true = .ok u ∧ u.data = .dense size vec ∧
    vec.length = 8 ∧ size = 2 :=
  ⟨_, rfl, by unfold Index.Fits; decide, _, _, _, rfl, rfl, by decide, by decide⟩

/-- Disagreement: both conversions lose the total size and the number of blocks, here for meta data with the correct statistics. -/
theorem C84_statistics_violated : ∃ s u, addAll (Index.fresh (.sparse [])) exAdds = .ok s ∧ s.calcStats.totalBytes ≠ 0 ∧
    s.calcStats.totalBlocks = 1 ∧ s.calcStats.toMmap true = .ok u ∧ u.totalBytes = 0 ∧ u.totalBlocks = 0 :=
  ⟨_, _, rfl, by decide, by decide, rfl, rfl, rfl⟩

set_option maxRecDepth 20000 in
/-- a file of this meta data behind three bytes -/
example : ∃ s old t, addAll (Index.fresh (.sparse [])) exAdds = .ok s ∧ s.calcStats.appendToFile [1, 2, 3] = .ok old ∧
    (∀ x ∈ old, x < 256) ∧ Index.readFromFile none old = .ok t ∧ t.data.exists (2 ^ 64 - 1) = .ok false ∧ t.data.exists 7 = .ok true :=
  ⟨_, _, _, rfl, rfl, by decide, rfl, rfl, rfl⟩

/-- `C84_oldest` applies to these relations. -/
example : (∀ a ∈ exAdds, a.1.WF ∧ a.2.WF) ∧ exAdds.length < 2 ^ 64 ∧ (relationBytes exAdds).length = 88 := by
  unfold exAdds Full.WF Blocks.WF; decide

/-- meta data with a vector, with the given blocks of relation 1 -/
def exDense (blocks : Map Blocks) : Index :=
  ⟨.dense 1 [Full.empty, Full.mk' 1 0 5 1 1 true false], blocks, 90, [112], 5, 90, 0⟩

set_option maxRecDepth 20000 in
/-- `C84_lost_violated` and `C84_current_partial` apply to this file, from which relation 1 is read if the vector is set up. -/
example : ∃ old t, (exDense []).Fits ∧ (exDense []).appendToFile [1, 2, 3] = .ok old ∧
    Index.readFromFile (some [Full.empty, Full.mk' 1 0 5 1 1 true false]) old = .ok t ∧ t.data.exists 1 = .ok true :=
  ⟨_, _, by unfold Index.Fits; decide, rfl, rfl, rfl⟩

/-- `C84_blocks_violated` applies to this one. -/
example : ∃ old, (exDense [(1, ⟨130, 200, [⟨1, 130⟩]⟩)]).Fits ∧ (exDense [(1, ⟨130, 200, [⟨1, 130⟩]⟩)]).appendToFile [1, 2, 3] = .ok old ∧
    ∀ e ∈ (exDense [(1, ⟨130, 200, [⟨1, 130⟩]⟩)]).blockData, e.1 < 2 ^ 64 ∧ e.2.WF :=
  ⟨_, by unfold Index.Fits; decide, rfl, by unfold exDense Blocks.WF; decide⟩

/-- A vector with a relation for which `C84_old_vector_violated` says something. -/
example : ∃ r, [Full.empty, Full.mk' 1 80 2 1 1 false true][1]? = some r ∧ r ≠ Full.empty ∧ r.hasBlocks = true :=
  ⟨_, rfl, by decide, by decide⟩

example : copyChunks 4 [1, 2, 3, 4, 5, 6, 7, 8, 9, 10] 0 9 = [1, 2, 3, 4, 5, 6, 7, 8, 9] := by rw [copyChunks_eq]; decide

end Verif.MetaData
