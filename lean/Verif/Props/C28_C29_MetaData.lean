import Verif.Lemmas.IndexMetaData
import Verif.Lemmas.TextMetaData
/-
C28: the fields of the packed relation meta data do not disturb each other.
C29: meta data survives being written to a file and read back.
-/
namespace Verif.MetaData
open Verif.Bytes Verif.MetaDataSpec

/-! ### C28 -/

/-- C28: for every relation with an element count up to the documented maximum, after the constructor and any
sequence of setter calls every getter returns what the record with five independent fields holds; relation id and
start offset are never changed. -/
theorem fields_independent (relId start nof l1 l2 : Nat) (f b : Bool) (hn : nof ≤ MAX_NOF_ELEMENTS)
    (us : List Update) (hu : ∀ u ∈ us, u.InRange) :
    let m := us.foldl (fun m u => setter u m) (Full.mk' relId start nof l1 l2 f b)
    (⟨m.nofElements, m.col1, m.col2, m.isFunctional, m.hasBlocks⟩ : Fields) =
      us.foldl (fun r u => u.apply r) ⟨nof, min l1 255, min l2 255, f, b⟩ ∧
    m.relId = relId ∧ m.start = start ∧ m.word < 2 ^ 64 := by
  have hmax : MAX_NOF_ELEMENTS = 2 ^ 40 - 1 := by decide
  have h64 : nof < 2 ^ 64 := by omega
  have hmod : nof % 2 ^ 40 = nof := Nat.mod_eq_of_lt (by omega)
  have key : ∀ (us : List Update) (m : Full) (r : Fields), (∀ u ∈ us, u.InRange) → m.word < 2 ^ 64 →
      fieldsOf m = r →
      fieldsOf (us.foldl (fun m u => setter u m) m) = us.foldl (fun r u => u.apply r) r ∧
      (us.foldl (fun m u => setter u m) m).relId = m.relId ∧
      (us.foldl (fun m u => setter u m) m).start = m.start ∧
      (us.foldl (fun m u => setter u m) m).word < 2 ^ 64 := by
    intro us
    induction us with
    | nil => intro m r _ hm hr; exact ⟨hr, rfl, rfl, hm⟩
    | cons u us ih =>
      intro m r hu hm hr
      have h1 := ih (setter u m) (u.apply r) (fun x hx => hu x (by simp [hx])) (setter_lt u m hm)
        (by rw [setter_fields u m hm (hu u (by simp)), hr])
      have h2 := setter_ids u m
      exact ⟨h1.1, h1.2.1.trans h2.1, h1.2.2.1.trans h2.2, h1.2.2.2⟩
  have h := key us (Full.mk' relId start nof l1 l2 f b) _ hu (mk'_lt _ _ _ _ _ _ _ h64)
    (by rw [mk'_fields _ _ _ _ _ _ _ h64, hmod])
  have hid := mk'_ids relId start nof l1 l2 f b
  exact ⟨h.1, h.2.1.trans hid.1, h.2.2.1.trans hid.2, h.2.2.2⟩

/-- The hypotheses hold for the maximal count and a sequence of setter calls, and the record is what is expected. -/
example :
    let m := List.foldl (fun m u => setter u m) (Full.mk' 7 1000 (2 ^ 40 - 1) 12 300 true false)
      [Update.col1 3, .functional false, .col2 255, .blocks true]
    (m.nofElements, m.col1, m.col2, m.isFunctional, m.hasBlocks) = (2 ^ 40 - 1, 3, 255, false, true) := by decide

/-- C28, beyond the maximum: the count is kept modulo `2^40`, the other fields are still right. -/
theorem fields_beyond_max (relId start nof l1 l2 : Nat) (f b : Bool) (hn : nof < 2 ^ 64) :
    let m := Full.mk' relId start nof l1 l2 f b
    m.nofElements = nof % 2 ^ 40 ∧ m.col1 = min l1 255 ∧ m.col2 = min l2 255 ∧ m.isFunctional = f ∧ m.hasBlocks = b := by
  have := mk'_fields relId start nof l1 l2 f b hn
  unfold fieldsOf at this
  injection this with h1 h2 h3 h4 h5
  exact ⟨h1, h2, h3, h4, h5⟩

/-- Byte positions derived from the count: the pair index has 16 bytes per element and the block list starts right
after it; asking for the latter without blocks throws. -/
theorem derived_positions (relId start nof l1 l2 : Nat) (f b : Bool) (hn : nof ≤ MAX_NOF_ELEMENTS)
    (hs : start + 16 * nof < 2 ^ 64) :
    let m := Full.mk' relId start nof l1 l2 f b
    m.nofBytes = 16 * nof ∧ m.startOfLhs = if b then .ok (start + 16 * nof) else .throw := by
  have hmax : MAX_NOF_ELEMENTS = 2 ^ 40 - 1 := by decide
  obtain ⟨h1, _, _, _, h5⟩ := fields_beyond_max relId start nof l1 l2 f b (by omega)
  have hid := (mk'_ids relId start nof l1 l2 f b).2
  have hmod : nof % 2 ^ 40 = nof := Nat.mod_eq_of_lt (by omega)
  refine ⟨by unfold Full.nofBytes; rw [h1, hmod]; omega, ?_⟩
  unfold Full.startOfLhs
  rw [h1, h5, hid, hmod]
  cases b
  · rfl
  · simp only [if_true]; congr 1; omega

example : (Full.mk' 7 1000 5 0 0 true true).startOfLhs = .ok 1080 := by decide

/-! ### C29: relation meta data -/

/-- C29: the meta data of one relation read from the bytes written for it is the same, whatever follows, and the
reader advances by exactly the bytes written. -/
theorem relation_meta_roundtrip (m : Full) (h : m.WF) (r : List Nat) :
    Full.create (m.write ++ r) = .ok m ∧ (m.write ++ r).drop m.bytesRequired = r :=
  ⟨full_roundtrip m h r, List.drop_left' (full_length m)⟩

example : (Full.mk' 7 1000 5 3 4 true true).WF := by unfold Full.WF; decide

/-- C29: the same for the block meta data of a relation, with any number of blocks. -/
theorem block_meta_roundtrip (m : Blocks) (h : m.WF) (r : List Nat) :
    Blocks.create (m.write ++ r) = .ok m ∧ (m.write ++ r).drop m.bytesRequired = r :=
  ⟨blocks_roundtrip m h r, List.drop_left' (blocks_length m)⟩

example : (Blocks.mk 500 900 [⟨1, 100⟩, ⟨2 ^ 64 - 1, 300⟩]).WF := by unfold Blocks.WF; decide

/-! ### C29: the meta data of a permutation -/

/-- Same content, hash maps possibly iterated in another order; name and statistics may have been set. -/
def Reordered (s s' : Index) : Prop :=
  (match s.data, s'.data with
    | .sparse m, .sparse m' => m'.Perm m
    | .dense n v, .dense n' v' => n' = n ∧ v' = v
    | _, _ => False) ∧
  s'.blockData.Perm s.blockData ∧ s'.offsetAfter = s.offsetAfter

/-- The plain numbers fit into 64 bits. -/
def Index.Fits (s : Index) : Prop :=
  s.name.length < 2 ^ 64 ∧ s.data.size < 2 ^ 64 ∧ s.offsetAfter < 2 ^ 64 ∧ s.blockData.length < 2 ^ 64 ∧
    s.totalElements < 2 ^ 64 ∧ s.totalBytes < 2 ^ 64 ∧ s.totalBlocks < 2 ^ 64

theorem metaPart_append (file bytes : List Nat) (h : file.length < 2 ^ 64) :
    metaPart (file ++ bytes ++ toLE 8 file.length) = .ok bytes := by
  unfold metaPart
  have hl : (file ++ bytes ++ toLE 8 file.length).length - 8 = file.length + bytes.length := by simp; omega
  have hp : pread (file ++ bytes ++ toLE 8 file.length) (file.length + bytes.length) 8 = toLE 8 file.length :=
    pread_mid' _ (file ++ bytes) (toLE 8 file.length) [] _ _ (by simp) (by simp) (by simp)
  simp only [hl, hp]
  rw [ofLE_toLE 8 _ (by simpa using h), if_neg (by simp; omega), if_neg (by omega)]
  rw [pread_mid' _ file bytes (toLE 8 file.length) _ _ rfl rfl (by omega)]

/-- Reading the header and the statistics around the relation part. -/
theorem create_frame (vec : Option (List Full)) (s : Index) (hf : s.Fits) (body : List Nat) (t : Index)
    (hbody : readRelations vec V_CURRENT s.data.size s.name s.offsetAfter
      (body ++ (toLE 8 s.totalElements ++ toLE 8 s.totalBytes ++ toLE 8 s.totalBlocks)) =
      .ok (t, toLE 8 s.totalElements ++ toLE 8 s.totalBytes ++ toLE 8 s.totalBlocks))
    (magic : Nat) (hm : magic = if vec.isSome then MAGIC_MMAP_VERSION else MAGIC_SPARSE_VERSION) :
    Index.create vec (toLE 8 magic ++ toLE 8 V_CURRENT ++ toLE 8 s.name.length ++ s.name ++ toLE 8 s.data.size ++
      toLE 8 s.offsetAfter ++ body ++ (toLE 8 s.totalElements ++ toLE 8 s.totalBytes ++ toLE 8 s.totalBlocks)) =
      .ok { t with totalElements := s.totalElements, totalBytes := s.totalBytes, totalBlocks := s.totalBlocks } := by
  obtain ⟨f1, f2, f3, _, f5, f6, f7⟩ := hf
  have hmagic : magic < 2 ^ 64 := by
    rw [hm]; split <;> simp only [MAGIC_MMAP_VERSION, MAGIC_SPARSE_VERSION] <;> omega
  have hkind : parseMagicKind vec.isSome magic = .ok (true, 8) := by
    rw [hm]
    cases vec <;> (simp only [Option.isSome_none, Option.isSome_some]; decide)
  have hv : V_CURRENT < 2 ^ 64 := by decide
  simp only [List.append_assoc] at hbody ⊢
  unfold Index.create parseMagic
  rw [rd64_zero _ _ hmagic]
  simp only [Outcome.bind, hkind, Bool.not_true, Bool.false_eq_true, if_false]
  have h8 : ∀ x r, rd64 (toLE 8 x ++ r) 8 = rd64 r 0 := fun x r => rd64_8 x r 0
  rw [h8, rd64_zero _ _ hv]
  simp only [gt_iff_lt, Nat.lt_irrefl, if_false]
  have hdrop : ∀ (x y : Nat) r, (toLE 8 x ++ (toLE 8 y ++ r)).drop (8 + 8) = r := by
    intro x y r; rw [← List.append_assoc]; exact List.drop_left' (by simp)
  rw [hdrop, rd64_zero _ _ f1]
  simp only
  rw [List.drop_left' (length_toLE 8 _), peek_zero _ _ _ rfl]
  simp only
  rw [List.drop_left' rfl, rd64_zero _ _ f2]
  simp only
  rw [List.drop_left' (length_toLE 8 _), rd64_zero _ _ f3]
  simp only
  rw [List.drop_left' (length_toLE 8 _), hbody]
  simp only
  rw [if_pos (by decide), rd64_zero _ _ f5]
  simp only
  rw [List.drop_left' (length_toLE 8 _), rd64_zero _ _ f6]
  simp only
  have := rd64_zero s.totalBlocks [] f7
  rw [List.append_nil] at this
  rw [List.drop_left' (length_toLE 8 _), this]

theorem reload_frame {vec : Option (List Full)} {s t : Index} {bytes : List Nat} (file : List Nat)
    (hfile : file.length < 2 ^ 64) (hw : s.write = .ok bytes) (hr : Index.create vec bytes = .ok t) :
    ∃ out, s.appendToFile file = .ok out ∧ out.take file.length = file ∧ Index.readFromFile vec out = .ok t := by
  refine ⟨file ++ bytes ++ toLE 8 file.length, ?_, ?_, ?_⟩
  · unfold Index.appendToFile; rw [hw]; rfl
  · rw [List.append_assoc, List.take_left]
  · unfold Index.readFromFile; rw [metaPart_append _ _ hfile]; exact hr

theorem sparse_reload_of_inv {s : Index} {adds : List Add} {m : Map Full} (hinv : Inv s adds) (hm : s.data = .sparse m)
    (hwf : ∀ a ∈ adds, a.1.WF ∧ a.2.WF) (file : List Nat) (hfile : file.length < 2 ^ 64) (s' : Index) (hre : Reordered s s')
    (hfits : s'.Fits) :
      ∃ out, s'.appendToFile file = .ok out ∧ out.take file.length = file ∧ ∃ t, Index.readFromFile none out = .ok t ∧
        t.name = s'.name ∧ t.offsetAfter = s'.offsetAfter ∧ t.totalElements = s'.totalElements ∧
        t.totalBytes = s'.totalBytes ∧ t.totalBlocks = s'.totalBlocks ∧
        ∀ id, t.data.exists id = .ok (lastFor (fun a : Add => a.1.relId) adds id).isSome ∧
          t.getRmd id = match lastFor (fun a : Add => a.1.relId) adds id with
            | none => .throw
            | some a => .ok (a.1, if a.1.hasBlocks then some a.2 else none) := by
  obtain ⟨hre1, hre2, hre3⟩ := hre
  rw [hm] at hre1
  cases hd' : s'.data with
  | dense n v => rw [hd'] at hre1; exact absurd hre1 id
  | sparse m' =>
    rw [hd'] at hre1
    have hperm : m'.Perm m := hre1
    have hdm := hinv.data
    rw [hm] at hdm
    have hnd' : (m'.map Prod.fst).Nodup := (hperm.map Prod.fst).nodup_iff.mpr hdm.1
    have hget' : ∀ id, m'.get id = (last adds id).map Prod.fst := fun id =>
      (get_perm hdm.1 hperm id).trans (hdm.2 id)
    have hbget : ∀ id a, last adds id = some a → a.1.hasBlocks = true → s'.blockData.get id = some a.2 :=
      fun id a h1 h2 => (get_perm hinv.bkeys hre2 id).trans (hinv.blocks id a h1 h2)
    -- every entry comes from the last addition for its key
    have hent : ∀ e ∈ m', ∃ a, last adds e.1 = some a ∧ a.1 = e.2 := by
      intro e he
      have := (get_some_iff hnd' e.1 e.2).mpr he
      rw [hget'] at this
      cases hl : last adds e.1 with
      | none => rw [hl] at this; cases this
      | some a => rw [hl] at this; exact ⟨a, rfl, by simpa using this⟩
    have hcond : ∀ e ∈ m', e.2.WF ∧ (e.2.hasBlocks = true → ∃ b, s'.blockData.get e.2.relId = some b ∧ b.WF) := by
      intro e he
      obtain ⟨a, hl, hae⟩ := hent e he
      obtain ⟨hmem, hrel⟩ := last_mem hl
      rw [← hae]
      refine ⟨(hwf a hmem).1, fun hb => ⟨a.2, ?_, (hwf a hmem).2⟩⟩
      rw [hrel]; exact hbget e.1 a hl hb
    obtain ⟨body, hw, hr⟩ := readEntries_spec s'.blockData m' hcond
    -- the additions made when reading
    have hadds : ∀ id, last (m'.map (entryAdd s'.blockData)) id =
        (last adds id).map fun a => (a.1, if a.1.hasBlocks then a.2 else Blocks.default) := by
      intro id
      have hent2 : ∀ e ∈ m', entryAdd s'.blockData e = (e.2, match last adds e.1 with
          | some a => if a.1.hasBlocks then a.2 else Blocks.default
          | none => Blocks.default) ∧ e.2.relId = e.1 := by
        intro e he
        obtain ⟨a, hl, hae⟩ := hent e he
        have hrel := (last_mem hl).2
        refine ⟨?_, by rw [← hae]; exact hrel⟩
        unfold entryAdd
        rw [hl, ← hae]
        by_cases hb : a.1.hasBlocks = true
        · simp only [hb, if_true, hrel, hbget e.1 a hl hb, Option.getD_some]
        · simp only [hb, Bool.false_eq_true, if_false]
      cases hl : last adds id with
      | none =>
        rw [Option.map_none]
        apply last_none
        intro x hx
        obtain ⟨e, he, rfl⟩ := List.mem_map.mp hx
        rw [(hent2 e he).1]
        intro h
        obtain ⟨a, hl', _⟩ := hent e he
        rw [show e.1 = id from (hent2 e he).2.symm.trans h, hl] at hl'
        cases hl'
      | some a =>
        have hg := hget' id
        rw [hl] at hg
        have hmem := (get_some_iff hnd' id a.1).mp hg
        -- exactly one entry has this key
        have huniq : ∀ x ∈ m'.map (entryAdd s'.blockData), x.1.relId = id →
            x = (a.1, if a.1.hasBlocks then a.2 else Blocks.default) := by
          intro x hx hid
          obtain ⟨e, he, rfl⟩ := List.mem_map.mp hx
          have h2 := hent2 e he
          rw [h2.1] at hid ⊢
          have hk : e.1 = id := h2.2.symm.trans hid
          have : m'.get id = some e.2 := (get_some_iff hnd' id e.2).mpr (by rw [← hk]; exact he)
          rw [hg] at this
          have hea : a.1 = e.2 := by simpa using this
          rw [hk, hl, ← hea]
        have hin : (a.1, if a.1.hasBlocks then a.2 else Blocks.default) ∈ m'.map (entryAdd s'.blockData) := by
          refine List.mem_map.mpr ⟨(id, a.1), hmem, ?_⟩
          rw [(hent2 _ hmem).1]; simp only [hl]
        obtain ⟨b, hb⟩ := last_isSome hin
        have hrel := (last_mem hl).2
        simp only at hb
        rw [hrel] at hb
        rw [hb, Option.map_some]
        exact congrArg some (huniq b (last_mem hb).1 (last_mem hb).2)
    obtain ⟨t, ht, _⟩ := addAll_sparse
      (s := { Index.fresh (.sparse []) with name := s'.name, offsetAfter := s'.offsetAfter }) ⟨_, rfl⟩
      (m'.map (entryAdd s'.blockData))
    have hinv0 : Inv { Index.fresh (.sparse []) with name := s'.name, offsetAfter := s'.offsetAfter } [] :=
      ⟨inv_sparse_fresh.data, inv_sparse_fresh.blocks, inv_sparse_fresh.bkeys, inv_sparse_fresh.bprov, by simp⟩
    obtain ⟨hinvt, htn, _, hto⟩ := inv_addAll hinv0 _ ht
    rw [List.nil_append] at hinvt
    have htoff : t.offsetAfter = s'.offsetAfter := by
      apply hto
      intro x hx
      obtain ⟨e, he, rfl⟩ := List.mem_map.mp hx
      obtain ⟨a, hl, hae⟩ := hent e he
      obtain ⟨hmem, hrel⟩ := last_mem hl
      have hle := hinv.off a hmem
      show _ ≤ s'.offsetAfter
      rw [hre3]
      refine Nat.le_trans (Nat.le_of_eq ?_) hle
      unfold expectedAfter entryAdd
      rw [← hae]
      by_cases hb : a.1.hasBlocks = true
      · simp only [hb, if_true, hrel, hbget e.1 a hl hb, Option.getD_some]
      · simp only [hb, Bool.false_eq_true, if_false]
    have hbody : readRelations none V_CURRENT s'.data.size s'.name s'.offsetAfter
        (body ++ (toLE 8 s'.totalElements ++ toLE 8 s'.totalBytes ++ toLE 8 s'.totalBlocks)) =
        .ok (t, toLE 8 s'.totalElements ++ toLE 8 s'.totalBytes ++ toLE 8 s'.totalBlocks) := by
      unfold readRelations
      simp only
      rw [hd', show (Data.sparse m').size = m'.length from rfl, hr, ht]
      rfl
    have hwrite : s'.write = .ok (toLE 8 MAGIC_SPARSE_VERSION ++ toLE 8 V_CURRENT ++ toLE 8 s'.name.length ++ s'.name ++
        toLE 8 s'.data.size ++ toLE 8 s'.offsetAfter ++ body ++
        (toLE 8 s'.totalElements ++ toLE 8 s'.totalBytes ++ toLE 8 s'.totalBlocks)) := by
      unfold Index.write
      simp only [hd', hw, Outcome.map]
      rfl
    obtain ⟨out, ho1, ho2, ho3⟩ := reload_frame file hfile hwrite
      (create_frame none s' hfits body t hbody MAGIC_SPARSE_VERSION rfl)
    refine ⟨out, ho1, ho2, _, ho3, htn, htoff, rfl, rfl, rfl, ?_⟩
    intro id
    have hlook := lookup_of_data (s := { t with totalElements := s'.totalElements, totalBytes := s'.totalBytes,
                                                totalBlocks := s'.totalBlocks }) hinvt.data hinvt.blocks id
      (fun n vec h => by
        have := hinvt.data
        obtain ⟨t2, h2, m2, hm2⟩ := addAll_sparse
          (s := { Index.fresh (.sparse []) with name := s'.name, offsetAfter := s'.offsetAfter }) ⟨_, rfl⟩
          (m'.map (entryAdd s'.blockData))
        rw [ht] at h2; injection h2 with h2; subst h2
        have h' : t.data = .dense n vec := h
        rw [hm2] at h'; cases h')
    rw [hlook.1, hlook.2]
    unfold lookupSpec
    rw [hadds id]
    rw [show lastFor (fun a : Add => a.1.relId) adds id = last adds id from rfl]
    refine ⟨by rw [Option.isSome_map], ?_⟩
    cases last adds id with
    | none => rfl
    | some a =>
      simp only [Option.map_some]
      by_cases hb : a.1.hasBlocks = true <;> simp [hb]

/-- C29, hash-map-based permutation meta data: after any sequence of additions, writing it to the end of any file
and reading it back gives meta data with the same name, end offset and statistics, and every lookup gives what was
added last for that relation. -/
theorem sparse_meta_reload (adds : List Add) (hwf : ∀ a ∈ adds, a.1.WF ∧ a.2.WF) (file : List Nat)
    (hfile : file.length < 2 ^ 64) :
    ∃ s, addAll (Index.fresh (.sparse [])) adds = .ok s ∧ ∀ s', Reordered s s' → s'.Fits →
      ∃ out, s'.appendToFile file = .ok out ∧ out.take file.length = file ∧ ∃ t, Index.readFromFile none out = .ok t ∧
        t.name = s'.name ∧ t.offsetAfter = s'.offsetAfter ∧ t.totalElements = s'.totalElements ∧
        t.totalBytes = s'.totalBytes ∧ t.totalBlocks = s'.totalBlocks ∧
        ∀ id, t.data.exists id = .ok (lastFor (fun a : Add => a.1.relId) adds id).isSome ∧
          t.getRmd id = match lastFor (fun a : Add => a.1.relId) adds id with
            | none => .throw
            | some a => .ok (a.1, if a.1.hasBlocks then some a.2 else none) := by
  obtain ⟨s, hs, m, hm⟩ := addAll_sparse (s := Index.fresh (.sparse [])) ⟨_, rfl⟩ adds
  refine ⟨s, hs, fun s' hre hfits => ?_⟩
  obtain ⟨hinv, _⟩ := inv_addAll inv_sparse_fresh adds hs
  rw [List.nil_append] at hinv
  exact sparse_reload_of_inv hinv hm hwf file hfile s' hre hfits

/-- The hypotheses hold for three additions, one replacing another, with and without blocks. -/
example : ∀ a ∈ [(Full.mk' 7 0 5 0 0 true true, Blocks.mk 80 160 [⟨1, 80⟩]), (Full.mk' 3 160 2 0 0 true false, Blocks.default),
    (Full.mk' 7 200 5 0 0 true true, Blocks.mk 280 360 [⟨1, 280⟩])], a.1.WF ∧ a.2.WF := by
  unfold Full.WF Blocks.WF; decide

theorem dense_reload_of_inv {n : Nat} {s : Index} {adds : List Add} {size : Nat} {vec : List Full} (hinv : Inv s adds)
    (hd : s.data = .dense size vec) (hlen : vec.length = n)
    (hwf : ∀ a ∈ adds, a.1.WF ∧ a.2.WF) (hlt : ∀ a ∈ adds, a.1.relId < n) (file : List Nat) (hfile : file.length < 2 ^ 64) (s' : Index)
    (hre : Reordered s s') (hfits : s'.Fits) :
      ∃ out, s'.appendToFile file = .ok out ∧ out.take file.length = file ∧
        ∃ t, Index.readFromFile (some vec) out = .ok t ∧
        t.name = s'.name ∧ t.offsetAfter = s'.offsetAfter ∧ t.data = s'.data ∧ t.totalElements = s'.totalElements ∧
        t.totalBytes = s'.totalBytes ∧ t.totalBlocks = s'.totalBlocks ∧
        ∀ id, id < n → t.data.exists id = .ok (lastFor (fun a : Add => a.1.relId) adds id).isSome ∧
          t.getRmd id = match lastFor (fun a : Add => a.1.relId) adds id with
            | none => .throw
            | some a => .ok (a.1, if a.1.hasBlocks then some a.2 else none) := by
  obtain ⟨hre1, hre2, hre3⟩ := hre
  rw [hd] at hre1
  cases hd' : s'.data with
  | sparse m => rw [hd'] at hre1; exact absurd hre1 id
  | dense n' v' =>
    rw [hd'] at hre1
    obtain ⟨rfl, rfl⟩ := hre1
    have hdm := hinv.data
    rw [hd] at hdm
    have hnd' : (s'.blockData.map Prod.fst).Nodup := (hre2.map Prod.fst).nodup_iff.mpr hinv.bkeys
    have hbget : ∀ id a, last adds id = some a → a.1.hasBlocks = true → s'.blockData.get id = some a.2 :=
      fun id a h1 h2 => (get_perm hinv.bkeys hre2 id).trans (hinv.blocks id a h1 h2)
    have hcond : ∀ e ∈ s'.blockData, e.1 < v'.length ∧ e.2.WF ∧ ∃ a, last adds e.1 = some a ∧
        (a.1.hasBlocks = true → e.2 = a.2) ∧ expectedAfter a ≤ s'.offsetAfter := by
      intro e he
      obtain ⟨b, hb, hrel, heq⟩ := hinv.bprov e (hre2.mem_iff.mp he)
      obtain ⟨a, ha⟩ := last_isSome hb
      rw [hrel] at ha
      refine ⟨by rw [hlen, ← hrel]; exact hlt b hb, by rw [← heq]; exact (hwf b hb).2, a, ha, fun hbl => ?_,
        by rw [hre3]; exact hinv.off a (last_mem ha).1⟩
      have h1 := hbget e.1 a ha hbl
      have h2 := (get_some_iff hnd' e.1 e.2).mpr he
      rw [h1] at h2; injection h2 with h2; exact h2.symm
    have hread : ∀ r, ∃ t, readBlockData s'.blockData.length
        { Index.fresh (.dense n' v') with name := s'.name, offsetAfter := s'.offsetAfter }
          ((s'.blockData.flatMap fun e => toLE 8 e.1 ++ e.2.write) ++ r) = .ok (t, r) ∧
        t.data = .dense n' v' ∧ t.name = s'.name ∧ t.offsetAfter = s'.offsetAfter ∧
        (∀ e ∈ s'.blockData, (∃ a, last adds e.1 = some a ∧ a.1.hasBlocks = true) → t.blockData.get e.1 = some e.2) := by
      intro r
      obtain ⟨t, h1, h2, h3, h4, h5, _⟩ := readBlockData_spec (n := n') hdm s'.blockData
        { Index.fresh (.dense n' v') with name := s'.name, offsetAfter := s'.offsetAfter } r rfl hnd' hcond
      exact ⟨t, h1, h2, h3, h4, h5⟩
    have hbl : s'.blockData.length < 2 ^ 64 := hfits.2.2.2.1
    -- the resulting state does not depend on what follows: only the state matters
    obtain ⟨t, h1, h2, h3, h4, h5⟩ := hread
      (toLE 8 s'.totalElements ++ toLE 8 s'.totalBytes ++ toLE 8 s'.totalBlocks)
    have hbody : readRelations (some v') V_CURRENT s'.data.size s'.name s'.offsetAfter
        ((toLE 8 s'.blockData.length ++ s'.blockData.flatMap fun e => toLE 8 e.1 ++ e.2.write) ++
          (toLE 8 s'.totalElements ++ toLE 8 s'.totalBytes ++ toLE 8 s'.totalBlocks)) =
        .ok (t, toLE 8 s'.totalElements ++ toLE 8 s'.totalBytes ++ toLE 8 s'.totalBlocks) := by
      unfold readRelations
      simp only
      rw [if_neg (by decide), List.append_assoc, rd64_zero _ _ hbl]
      simp only [Outcome.bind]
      rw [List.drop_left' (length_toLE 8 _), hd', show (Data.dense n' v').size = n' from rfl]
      exact h1
    have hwrite : s'.write = .ok (toLE 8 MAGIC_MMAP_VERSION ++ toLE 8 V_CURRENT ++ toLE 8 s'.name.length ++ s'.name ++
        toLE 8 s'.data.size ++ toLE 8 s'.offsetAfter ++
        (toLE 8 s'.blockData.length ++ s'.blockData.flatMap fun e => toLE 8 e.1 ++ e.2.write) ++
        (toLE 8 s'.totalElements ++ toLE 8 s'.totalBytes ++ toLE 8 s'.totalBlocks)) := by
      unfold Index.write
      simp only [hd']
      rfl
    obtain ⟨out, ho1, ho2, ho3⟩ := reload_frame file hfile hwrite
      (create_frame (some v') s' hfits _ t hbody MAGIC_MMAP_VERSION rfl)
    refine ⟨out, ho1, ho2, _, ho3, h3, h4, h2, rfl, rfl, rfl, ?_⟩
    intro id hid
    exact lookup_of_data (s := { t with totalElements := s'.totalElements, totalBytes := s'.totalBytes,
                                        totalBlocks := s'.totalBlocks })
      (by show DataInv t.data adds; rw [h2]; exact hdm)
      (fun id a hl hb => by
        have hg := hbget id a hl hb
        exact h5 _ ((get_some_iff hnd' id a.2).mp hg) ⟨a, hl, hb⟩) id
      (fun n2 vec2 h => by
        have h' : t.data = .dense n2 vec2 := h
        rw [h2] at h'; cases h'; rw [hlen]; exact hid)

/-- C29, mmap-based permutation meta data: the same, for every relation id in the range of the persisted vector. -/
theorem dense_meta_reload (n : Nat) (hn : n < 2 ^ 64) (adds : List Add) (hwf : ∀ a ∈ adds, a.1.WF ∧ a.2.WF)
    (hlt : ∀ a ∈ adds, a.1.relId < n) (file : List Nat) (hfile : file.length < 2 ^ 64) :
    ∃ s size vec, addAll (Index.fresh (.dense 0 (List.replicate n Full.empty))) adds = .ok s ∧ s.data = .dense size vec ∧
      vec.length = n ∧ ∀ s', Reordered s s' → s'.Fits →
      ∃ out, s'.appendToFile file = .ok out ∧ out.take file.length = file ∧
        ∃ t, Index.readFromFile (some vec) out = .ok t ∧
        t.name = s'.name ∧ t.offsetAfter = s'.offsetAfter ∧ t.data = s'.data ∧ t.totalElements = s'.totalElements ∧
        t.totalBytes = s'.totalBytes ∧ t.totalBlocks = s'.totalBlocks ∧
        ∀ id, id < n → t.data.exists id = .ok (lastFor (fun a : Add => a.1.relId) adds id).isSome ∧
          t.getRmd id = match lastFor (fun a : Add => a.1.relId) adds id with
            | none => .throw
            | some a => .ok (a.1, if a.1.hasBlocks then some a.2 else none) := by
  obtain ⟨s, hs, size, vec, hd, hlen⟩ := addAll_dense (s := Index.fresh (.dense 0 (List.replicate n Full.empty))) rfl adds
    (fun a ha => by simpa using hlt a ha)
  rw [List.length_replicate] at hlen
  refine ⟨s, size, vec, hs, hd, hlen, fun s' hre hfits => ?_⟩
  obtain ⟨hinv, _⟩ := inv_addAll (inv_dense_fresh n hn) adds hs
  rw [List.nil_append] at hinv
  exact dense_reload_of_inv hinv hd hlen hwf hlt file hfile s' hre hfits

/-- The hypotheses hold for a vector of four relations. -/
example : let adds := [(Full.mk' 1 0 5 0 0 true true, Blocks.mk 80 160 [⟨1, 80⟩]),
      (Full.mk' 3 160 2 0 0 true false, Blocks.default)];
    (∀ a ∈ adds, a.1.WF ∧ a.2.WF) ∧ ∀ a ∈ adds, a.1.relId < 4 := by
  unfold Full.WF Blocks.WF; decide

/-- Meta data of one kind is never silently read as the other kind: reading throws. -/
theorem wrong_kind_throws (s : Index) (vec : Option (List Full)) (h : s.data.isMmap ≠ vec.isSome) (file out : List Nat)
    (hfile : file.length < 2 ^ 64) (ho : s.appendToFile file = .ok out) : Index.readFromFile vec out = .throw := by
  have key : ∀ magic r, (magic = if s.data.isMmap then MAGIC_MMAP_VERSION else MAGIC_SPARSE_VERSION) →
      Index.create vec (toLE 8 magic ++ r) = .throw := by
    intro magic r hm
    unfold Index.create parseMagic
    have hlt : magic < 2 ^ 64 := by
      rw [hm]; split <;> simp only [MAGIC_MMAP_VERSION, MAGIC_SPARSE_VERSION] <;> omega
    rw [rd64_zero _ _ hlt]
    have hk : parseMagicKind vec.isSome magic = .throw := by
      rw [hm]
      cases hs : s.data.isMmap <;> cases hv : vec.isSome <;> rw [hs, hv] at h
      · exact absurd rfl h
      · decide
      · decide
      · exact absurd rfl h
    simp only [Outcome.bind, hk]
  unfold Index.appendToFile at ho
  cases hw : s.write with
  | throw => rw [hw] at ho; cases ho
  | ub => rw [hw] at ho; cases ho
  | diverge => rw [hw] at ho; cases ho
  | ok bytes =>
    rw [hw] at ho
    injection ho with ho
    rw [← ho]
    unfold Index.readFromFile
    rw [metaPart_append _ _ hfile]
    unfold Index.write at hw
    cases hd : s.data with
    | sparse m =>
      simp only [hd] at hw
      cases he : writeEntries s.blockData m with
      | throw => rw [he] at hw; cases hw
      | ub => rw [he] at hw; cases hw
      | diverge => rw [he] at hw; cases hw
      | ok b =>
        rw [he] at hw
        injection hw with hw
        rw [← hw]
        simp only [List.append_assoc, Outcome.bind]
        exact key _ _ (by rw [hd])
    | dense n v =>
      simp only [hd] at hw
      injection hw with hw
      rw [← hw]
      simp only [List.append_assoc, Outcome.bind]
      exact key _ _ (by rw [hd])

example : (Index.fresh (.sparse [])).data.isMmap ≠ (some ([] : List Full)).isSome := by decide

end Verif.MetaData
