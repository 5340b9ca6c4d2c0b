import Verif.Sc.Topic
import Verif.Props.Scheduler
import Verif.Props.PartitionMap

/-!
# C42, C43, C53: topics and their partitions
-/

namespace Verif.Props
open Verif.Sc

/-! ## Specification -/

/-- an acceptable configuration -/
def ValidSpec : TSpec → Prop
  | .computed n rf => 0 < n ∧ 0 < rf
  | .assigned maps => WellFormed maps
  | .mirror _ => True

/-- the replicas `rs` are what the configuration asks for in partition `i` -/
def Fits : TSpec → Nat → List Int → Prop
  | .computed _ rf, _, rs => rs.length = rf ∧ rs.Nodup
  | .assigned maps, i, rs => ∃ h : i < maps.length, rs = maps[i].replicas
  | .mirror _, _, rs => rs.length = 1

/-- the map assigns replicas to exactly the partitions `0, …, n-1`, as the configuration asks -/
def Covers (spec : TSpec) (map : RMap) (n : Nat) : Prop :=
  map.map (·.1) = List.range n ∧ ∀ i < n, ∃ rs, map.get i = some rs ∧ Fits spec i rs

/-! ## Facts about maps -/

theorem get_lt {m : RMap} {n i : Nat} {rs : List Int} (hk : m.map (·.1) = List.range n)
    (h : m.get i = some rs) : i < n := by
  unfold RMap.get at h
  cases hf : m.find? fun e => e.1 == i with
  | none => rw [hf] at h; cases h
  | some e =>
    have hm := List.mem_of_find?_eq_some hf
    have he : e.1 = i := by simpa using List.find?_some hf
    have : e.1 ∈ m.map (·.1) := List.mem_map.2 ⟨e, hm, rfl⟩
    rw [hk, he] at this
    exact List.mem_range.1 this

theorem get_mem {m : RMap} {i : Nat} {rs : List Int} (h : m.get i = some rs) : (i, rs) ∈ m := by
  unfold RMap.get at h
  cases hf : m.find? fun e => e.1 == i with
  | none => rw [hf] at h; cases h
  | some e =>
    have hm := List.mem_of_find?_eq_some hf
    have he : e.1 = i := by simpa using List.find?_some hf
    rw [hf] at h
    have h2 : e.2 = rs := by simpa using h
    rw [← he, ← h2]; exact hm

theorem Covers.length {spec : TSpec} {m : RMap} {n : Nat} (h : Covers spec m n) : m.length = n := by
  have := congrArg List.length h.1
  simpa using this

theorem Covers.nodup {spec : TSpec} {m : RMap} {n : Nat} (h : Covers spec m n) : (m.map (·.1)).Nodup := by
  rw [h.1]; exact List.nodup_range

theorem Covers.get {spec : TSpec} {m : RMap} {n : Nat} (h : Covers spec m n) {e : Nat × List Int} (he : e ∈ m) :
    m.get e.1 = some e.2 := find_of_nodup m h.nodup e he

theorem Covers.fits {spec : TSpec} {m : RMap} {n i : Nat} {rs : List Int} (h : Covers spec m n)
    (hg : m.get i = some rs) : Fits spec i rs := by
  obtain ⟨rs', h1, h2⟩ := h.2 i (get_lt h.1 hg)
  rw [hg] at h1
  rw [Option.some.inj h1]; exact h2

theorem mapOfSpec_eq (maps : List PMap) (h : ∀ i (hi : i < maps.length), maps[i].id = i) :
    mapOfSpec maps = maps.map fun p => (p.id, p.replicas) := by
  have key : ∀ (l : List PMap) (k : Nat) (acc : RMap), (∀ e ∈ acc, e.1 < k) →
      (∀ i (hi : i < l.length), l[i].id = k + i) →
      l.foldl (fun m p => m.insert p.id p.replicas) acc = acc ++ l.map fun p => (p.id, p.replicas) := by
    intro l
    induction l with
    | nil => intro k acc _ _; simp
    | cons p rest ih =>
      intro k acc hacc hl
      have hp : p.id = k := hl 0 (by simp)
      rw [List.foldl_cons, RMap.insert_last acc p.id p.replicas (by rw [hp]; exact hacc),
        ih (k + 1) _ ?_ ?_]
      · simp
      · intro e he
        rcases List.mem_append.1 he with he | he
        · have := hacc e he; omega
        · rw [List.mem_singleton.1 he]; show p.id < k + 1; omega
      · intro i hi
        have := hl (i + 1) (by simp; omega)
        simp only [List.getElem_cons_succ] at this
        omega
  have := key maps 0 [] nofun (fun i hi => by rw [h i hi]; omega)
  simpa [mapOfSpec] using this

theorem covers_mapOfSpec {maps : List PMap} (h : WellFormed maps) :
    Covers (.assigned maps) (mapOfSpec maps) maps.length := by
  obtain ⟨_, rf, _, hw⟩ := h
  rw [mapOfSpec_eq maps fun i hi => (hw i hi).1]
  have hk : (maps.map fun p => (p.id, p.replicas)).map (·.1) = List.range maps.length := by
    apply List.ext_getElem
    · simp
    · intro i h1 h2
      simp only [List.getElem_map, List.getElem_range]
      exact (hw i (by simpa using h1)).1
  refine ⟨hk, fun i hi => ⟨maps[i].replicas, ?_, hi, rfl⟩⟩
  have hm : (maps[i].id, maps[i].replicas) ∈ maps.map fun p => (p.id, p.replicas) :=
    List.mem_map.2 ⟨maps[i], List.getElem_mem hi, rfl⟩
  have := find_of_nodup _ (by rw [hk]; exact List.nodup_range) _ hm
  rw [(hw i hi).1] at this
  exact this

/-! ## The invariant -/

/-- configurations whose size fits the `u32` ids -/
def Sized : TSpec → Prop
  | .assigned maps => maps.length ≤ 2 ^ 32
  | _ => True

theorem validateSpec_pending {s : TSpec} (hs : Sized s) (h : (validateSpec s).resolution = .pending) :
    ValidSpec s := by
  cases s with
  | computed n rf =>
    simp only [validateSpec] at h
    split at h
    · cases h
    · split at h
      · cases h
      · exact ⟨by omega, by omega⟩
  | assigned maps =>
    simp only [validateSpec] at h
    split at h
    · cases h
    · rename_i hv
      exact (C40_validate maps hs).1 hv
  | mirror cs => trivial

theorem validateSpec_valid {s : TSpec} (hs : Sized s) (h : ValidSpec s) :
    validateSpec s = { resolution := .pending, reason := .pending } := by
  cases s with
  | computed n rf =>
    simp only [validateSpec]
    rw [if_neg (by have := h.1; omega), if_neg (by have := h.2; omega)]
  | assigned maps =>
    simp only [validateSpec]
    rw [(C40_validate maps hs).2 h]
  | mirror cs => rfl

theorem validateSpec_invalid {s : TSpec} (hs : Sized s) (h : ¬ ValidSpec s) :
    (validateSpec s).resolution = .invalidConfig := by
  cases s with
  | computed n rf =>
    simp only [validateSpec]
    split
    · rfl
    · split
      · rfl
      · exact absurd ⟨by omega, by omega⟩ h
  | assigned maps =>
    simp only [validateSpec]
    split
    · rfl
    · rename_i hv
      exact absurd ((C40_validate maps hs).1 hv) h
  | mirror cs => exact absurd trivial h

theorem validateSpec_none (s : TSpec) :
    (validateSpec s).map = [] ∧ (validateSpec s).parts = [] ∧ (validateSpec s).mirrors = [] ∧
      ((validateSpec s).resolution = .pending ∨ (validateSpec s).resolution = .invalidConfig) := by
  cases s with
  | computed n rf =>
    simp only [validateSpec]
    split
    · exact ⟨rfl, rfl, rfl, .inr rfl⟩
    · split
      · exact ⟨rfl, rfl, rfl, .inr rfl⟩
      · exact ⟨rfl, rfl, rfl, .inl rfl⟩
  | assigned maps =>
    simp only [validateSpec]
    split
    · exact ⟨rfl, rfl, rfl, .inr rfl⟩
    · exact ⟨rfl, rfl, rfl, .inl rfl⟩
  | mirror cs => exact ⟨rfl, rfl, rfl, .inl rfl⟩

/-- the mirror map belonging to `k` provisioned partitions -/
def mirrorsFor : TSpec → Nat → List (Nat × Nat)
  | .mirror cs, k => numbered (cs.take k)
  | _, _ => []

structure Inv (w : World) : Prop where
  sized : Sized w.topic.spec
  valid : w.topic.status.resolution = .pending ∨ w.topic.status.resolution = .insufficient ∨
    w.topic.status.resolution = .provisioned → ValidSpec w.topic.spec
  covers : Covers w.topic.spec w.topic.status.map w.topic.status.map.length
  small : w.topic.status.map.length ≤ w.topic.spec.partitions
  nonempty : w.topic.status.resolution = .provisioned → w.topic.status.map ≠ []
  mapValid : w.topic.status.map ≠ [] → ValidSpec w.topic.spec
  fixedMap : ∀ maps, w.topic.spec = .assigned maps → w.topic.status.map = [] ∨
    (w.topic.status.map.length = maps.length ∧
      (w.topic.status.resolution = .provisioned ∨ w.topic.status.resolution = .deleting))
  mirrors : w.topic.status.mirrors = mirrorsFor w.topic.spec w.topic.status.map.length
  agree : ∀ p ∈ w.store, p.key.topic = w.topic.name →
    w.topic.status.map.get p.key.idx = some p.spec.replicas ∧
    p.mirror = (w.topic.status.mirrors.find? fun m => m.1 == p.key.idx).map (·.2) ∧
    p.settings = w.topic.settings

theorem inv_fresh {w : World} (h : Fresh w) (hs : Sized w.topic.spec) : Inv w := by
  obtain ⟨h1, h2⟩ := h
  refine ⟨hs, ?_, ?_, ?_, ?_, ?_, ?_, ?_, ?_⟩
  · rw [h1]; rintro (h | h | h) <;> cases h
  · rw [h1]; exact ⟨rfl, nofun⟩
  · rw [h1]; exact Nat.zero_le _
  · rw [h1]; nofun
  · rw [h1]; exact fun c => absurd rfl c
  · rw [h1]; exact fun _ _ => .inl rfl
  · rw [h1]
    show [] = mirrorsFor w.topic.spec 0
    cases w.topic.spec <;> rfl
  · exact fun p hp e => absurd e (h2 p hp)

/-! ## Partitions -/

theorem applyPartition_new (store : List Partition) (p : Partition) (h : ∀ q ∈ store, q.key ≠ p.key) :
    applyPartition store p = store ++ [p] := by
  unfold applyPartition
  rw [if_neg]
  simpa using h

theorem applyPartitions_new (l store : List Partition) (hn : (l.map (·.key)).Nodup)
    (h : ∀ p ∈ l, ∀ q ∈ store, q.key ≠ p.key) : l.foldl applyPartition store = store ++ l := by
  induction l generalizing store with
  | nil => simp
  | cons p rest ih =>
    rw [List.map_cons, List.nodup_cons] at hn
    rw [List.foldl_cons, applyPartition_new store p (h p List.mem_cons_self), ih _ hn.2]
    · simp
    · intro p' hp' q hq
      rcases List.mem_append.1 hq with hq | hq
      · exact h p' (List.mem_cons_of_mem _ hp') q hq
      · rw [List.mem_singleton.1 hq]
        exact fun e => hn.1 (e ▸ List.mem_map.2 ⟨p', hp', rfl⟩)

/-- what a new partition looks like -/
theorem mem_newPartitions {t : Topic} {store : List Partition} {p : Partition} :
    p ∈ newPartitions t store ↔
      ∃ e ∈ t.status.map, (∀ q ∈ store, q.key ≠ ⟨t.name, e.1⟩) ∧
        p = .fromReplicas ⟨t.name, e.1⟩ e.2 ((t.status.mirrors.find? fun m => m.1 == e.1).map (·.2)) t.settings := by
  unfold newPartitions
  rw [List.mem_filterMap]
  constructor
  · rintro ⟨e, he, h⟩
    split at h
    · cases h
    · rename_i hn
      refine ⟨e, he, ?_, (Option.some.inj h).symm⟩
      simpa using hn
  · rintro ⟨e, he, hn, rfl⟩
    refine ⟨e, he, ?_⟩
    rw [if_neg]
    simpa using hn

theorem newPartitions_nodup {t : Topic} (store : List Partition) (hk : (t.status.map.map (·.1)).Nodup) :
    ((newPartitions t store).map (·.key)).Nodup := by
  unfold newPartitions
  generalize t.status.map = m at hk
  induction m with
  | nil => exact List.nodup_nil
  | cons e rest ih =>
    rw [List.map_cons, List.nodup_cons] at hk
    rw [List.filterMap_cons]
    split
    · exact ih hk.2
    · rename_i p hp
      rw [List.map_cons, List.nodup_cons]
      refine ⟨?_, ih hk.2⟩
      split at hp
      · cases hp
      · have hp := Option.some.inj hp
        subst hp
        intro hm
        obtain ⟨q, hq, eq⟩ := List.mem_map.1 hm
        obtain ⟨e', he', h'⟩ := List.mem_filterMap.1 hq
        split at h'
        · cases h'
        · have := Option.some.inj h'
          subst this
          have : e'.1 = e.1 := by
            have : (ReplicaKey.mk t.name e'.1) = ⟨t.name, e.1⟩ := eq
            exact (ReplicaKey.mk.inj this).2
          exact hk.1 (this ▸ List.mem_map.2 ⟨e', he', rfl⟩)

/-- applying the new partitions appends them -/
theorem apply_new {t : Topic} (store : List Partition) (hk : (t.status.map.map (·.1)).Nodup) :
    (newPartitions t store).foldl applyPartition store = store ++ newPartitions t store := by
  apply applyPartitions_new _ _ (newPartitions_nodup store hk)
  intro p hp q hq
  obtain ⟨e, _, hn, rfl⟩ := mem_newPartitions.1 hp
  exact hn q hq

theorem newPartitions_again {t t' : Topic} (store : List Partition) (hname : t'.name = t.name)
    (hmap : t'.status.map = t.status.map) : newPartitions t' (store ++ newPartitions t store) = [] := by
  apply List.eq_nil_iff_forall_not_mem.2
  intro p hp
  obtain ⟨e, he, hn, _⟩ := mem_newPartitions.1 hp
  rw [hmap] at he
  rw [hname] at hn
  by_cases hex : ∀ q ∈ store, q.key ≠ ⟨t.name, e.1⟩
  · have := mem_newPartitions.2 ⟨e, he, hex, rfl⟩
    exact hn _ (List.mem_append_right _ this) rfl
  · exact hex fun q hq => hn q (List.mem_append_left _ hq)

/-! ## Evaluation -/

theorem filter_none (l : List Partition) : (l.filter fun p => !([] : List ReplicaKey).contains p.key) = l := by
  apply List.filter_eq_self.2
  intro p _; rfl

theorem assignedNext_mirrors (maps : List PMap) (spus : List Spu) :
    (assignedNext maps spus).mirrors = [] ∧ (assignedNext maps spus).parts = [] ∧
    (((assignedNext maps spus).resolution = .invalidConfig ∧ (assignedNext maps spus).map = []) ∨
     ((assignedNext maps spus).resolution = .provisioned ∧ (assignedNext maps spus).reason = .none ∧
       (assignedNext maps spus).map = mapOfSpec maps ∧ mapOfSpec maps ≠ [] ∧
       ∀ s ∈ uniqueSpus maps, ∃ u ∈ spus, u.id = s)) := by
  unfold assignedNext
  split
  · exact ⟨rfl, rfl, .inl ⟨rfl, rfl⟩⟩
  · rename_i hf
    split
    · exact ⟨rfl, rfl, .inl ⟨rfl, rfl⟩⟩
    · rename_i he
      refine ⟨rfl, rfl, .inr ⟨rfl, rfl, rfl, fun c => he (by rw [c]; rfl), fun s hs => ?_⟩⟩
      have := List.find?_eq_none.1 hf s hs
      simpa using this

/-- if the resolution stays the same, so does the map -/
theorem next_same (w : World) (h : w.next.resolution = w.topic.status.resolution) :
    w.next.map = [] ∧ w.next.mirrors = [] := by
  unfold World.next at h ⊢
  cases hr : w.topic.status.resolution with
  | init => exact ⟨(validateSpec_none _).1, (validateSpec_none _).2.2.1⟩
  | invalidConfig => exact ⟨(validateSpec_none _).1, (validateSpec_none _).2.2.1⟩
  | provisioned => exact ⟨rfl, rfl⟩
  | deleting => exact ⟨rfl, rfl⟩
  | pending =>
    rw [hr] at h
    cases hs : w.topic.spec with
    | computed n rf =>
      rw [hs] at h
      simp only at h ⊢
      split at h <;> cases h
    | mirror cs =>
      rw [hs] at h
      simp only at h ⊢
      split at h <;> cases h
    | assigned maps =>
      rw [hs] at h
      simp only at h ⊢
      rcases (assignedNext_mirrors maps w.spus).2.2 with ⟨a, _⟩ | ⟨a, _⟩
      · rw [if_neg (by rw [a]; nofun), a] at h; cases h
      · rw [if_pos a] at h; exact absurd (a.symm.trans h) nofun
  | insufficient =>
    rw [hr] at h
    cases hs : w.topic.spec with
    | computed n rf =>
      rw [hs] at h
      simp only at h ⊢
      split at h
      · rename_i hc; rw [if_pos hc]; exact ⟨rfl, rfl⟩
      · cases h
    | mirror cs =>
      rw [hs] at h
      simp only at h ⊢
      split at h
      · rename_i hc; rw [if_pos hc]; exact ⟨rfl, rfl⟩
      · cases h
    | assigned maps =>
      rw [hs] at h
      simp only at h ⊢
      rcases (assignedNext_mirrors maps w.spus).2.2 with ⟨a, _⟩ | ⟨a, _⟩
      · rw [if_neg (by rw [a]; nofun), a] at h; cases h
      · rw [if_pos a] at h; exact absurd (a.symm.trans h) nofun

theorem eval_eq (w : World) (hd : w.topic.deleting = false)
    (hs : ¬ (w.topic.status.resolution = .provisioned ∧ w.topic.status.map.length < w.topic.spec.partitions)) :
    w.eval = { w with
      topic := { w.topic with status := w.next.applyTo w.topic.status }
      store := w.next.parts.foldl applyPartition w.store } := by
  unfold World.eval World.actions
  rw [if_neg (by rw [hd]; nofun), if_neg hs]
  unfold World.perform
  simp only [filter_none]
  by_cases hc : w.next.resolution ≠ w.topic.status.resolution ∨ w.next.reason ≠ w.topic.status.reason
  · simp only [if_pos hc]
  · simp only [if_neg hc]
    have h1 : w.next.resolution = w.topic.status.resolution := Classical.byContradiction fun c => hc (.inl c)
    have h2 : w.next.reason = w.topic.status.reason := Classical.byContradiction fun c => hc (.inr c)
    have ⟨h3, h4⟩ := next_same w h1
    have : w.next.applyTo w.topic.status = w.topic.status := by
      unfold NextState.applyTo
      rw [h1, h2, h3, h4]
      rfl
    rw [this]

theorem eval_short (w : World) (hd : w.topic.deleting = false) (hr : w.topic.status.resolution = .provisioned)
    (hs : w.topic.status.map.length < w.topic.spec.partitions) :
    w.eval = { w with topic := { w.topic with status := { w.topic.status with resolution := .pending } } } := by
  unfold World.eval World.actions
  rw [if_neg (by rw [hd]; nofun), if_pos ⟨hr, hs⟩]
  unfold World.perform
  simp only [filter_none, List.foldl_nil]

theorem eval_deleting (w : World) (hd : w.topic.deleting = true) :
    w.eval = if w.topic.status.resolution = .deleting then w else
      { w with
        topic := { w.topic with status := { w.topic.status with resolution := .deleting } }
        store := w.store.filter fun p =>
          !((w.store.filter fun p => p.key.topic == w.topic.name).map (·.key)).contains p.key } := by
  unfold World.eval World.actions
  rw [if_pos hd]
  split
  · unfold World.perform
    simp only [filter_none, List.foldl_nil]
  · rfl

/-- a generated map covers all partitions, and agrees with the old one -/
theorem generated_covers (w : World) (n rf : Nat) (hold : ∀ i rs, w.topic.status.map.get i = some rs → rs.length = rf ∧ rs.Nodup)
    (hne : w.generated n rf ≠ []) :
    (w.generated n rf).map (·.1) = List.range n ∧
    (∀ i < n, ∃ rs, (w.generated n rf).get i = some rs ∧ rs.length = rf ∧ rs.Nodup) ∧
    ∀ i < n, ∀ rs, w.topic.status.map.get i = some rs → (w.generated n rf).get i = some rs := by
  rcases C38_valid w.spus (w.store.map (·.spec)) n rf w.topic.status.map with h | ⟨h1, h2⟩
  · exact absurd h hne
  · refine ⟨h1, fun i hi => ?_, fun i hi rs hrs => ?_⟩
    · obtain ⟨rs, a, b, c, d⟩ := h2 i hi
      refine ⟨rs, a, b, ?_⟩
      cases ho : w.topic.status.map.get i with
      | none => exact (d (by rw [ho]; nofun)).1
      | some old =>
        have ⟨l1, l2⟩ := hold i old ho
        rw [c old ho l1]; exact l2
    · obtain ⟨rs', a, b, c, d⟩ := h2 i hi
      rw [← c rs hrs (hold i rs hrs).1]; exact a

/-- what an evaluation of a topic that is not being deleted can do -/
inductive Outcome (w : World) : World → Prop where
  /-- only resolution and reason change -/
  | resolved (r : TResolution) (reason : Reason) (h : r ≠ .provisioned)
      (hv : r = .pending ∨ r = .insufficient → ValidSpec w.topic.spec)
      (hd : r = .deleting → w.topic.status.resolution = .deleting)
      (ha : ∀ maps, w.topic.spec = .assigned maps → w.topic.status.map = [] ∨ r = .deleting) :
      Outcome w { w with topic := { w.topic with status :=
        { w.topic.status with resolution := r, reason := reason } } }
  /-- replicas are assigned -/
  | assigned (m : RMap) (hr : w.topic.status.resolution = .pending ∨ w.topic.status.resolution = .insufficient)
      (hne : m ≠ []) (hc : Covers w.topic.spec m w.topic.spec.partitions)
      (hk : ∀ i rs, w.topic.status.map.get i = some rs → m.get i = some rs) :
      Outcome w { w with topic := { w.topic with status :=
        ⟨.provisioned, m, mirrorsFor w.topic.spec m.length, .none⟩ } }
  /-- missing partitions are created -/
  | created (hr : w.topic.status.resolution = .provisioned)
      (hl : w.topic.spec.partitions ≤ w.topic.status.map.length) :
      Outcome w { w with
        topic := { w.topic with status := { w.topic.status with reason := .none } }
        store := w.store ++ newPartitions w.topic w.store }

theorem status_eta (s : TStatus) (r : TResolution) (x : Reason) :
    ({ resolution := r, reason := x, map := s.map, mirrors := s.mirrors } : TStatus)
      = { s with resolution := r, reason := x } := rfl

theorem outcome (w : World) (inv : Inv w) (hd : w.topic.deleting = false) : Outcome w w.eval := by
  by_cases hshort : w.topic.status.resolution = .provisioned ∧ w.topic.status.map.length < w.topic.spec.partitions
  · rw [eval_short w hd hshort.1 hshort.2]
    refine .resolved .pending w.topic.status.reason nofun
      (fun _ => inv.valid (.inr (.inr hshort.1))) nofun fun maps hm => ?_
    rcases inv.fixedMap maps hm with h | ⟨h, _⟩
    · exact .inl h
    · have := hshort.2
      rw [hm, h] at this
      exact absurd this (Nat.lt_irrefl _)
  · have he := eval_eq w hd hshort
    have validated : w.topic.status.resolution = .init ∨ w.topic.status.resolution = .invalidConfig →
        w.next = validateSpec w.topic.spec → Outcome w w.eval := by
      intro hr hn
      rw [he, hn]
      have ⟨h1, h2, h3, h4⟩ := validateSpec_none w.topic.spec
      unfold NextState.applyTo
      rw [h1, h2, h3]
      have hmap : ∀ maps, w.topic.spec = .assigned maps → w.topic.status.map = [] := fun maps hm => by
        rcases inv.fixedMap maps hm with h | ⟨_, h | h⟩
        · exact h
        · rcases hr with hr | hr <;> rw [hr] at h <;> cases h
        · rcases hr with hr | hr <;> rw [hr] at h <;> cases h
      refine .resolved (validateSpec w.topic.spec).resolution (validateSpec w.topic.spec).reason ?_ ?_ ?_
        fun maps hm => .inl (hmap maps hm)
      · rcases h4 with h | h <;> rw [h] <;> nofun
      · rintro (h | h)
        · exact validateSpec_pending inv.sized h
        · rcases h4 with h' | h' <;> rw [h'] at h <;> cases h
      · intro h
        rcases h4 with h' | h' <;> rw [h'] at h <;> cases h
    have scheduled : w.topic.status.resolution = .pending ∨ w.topic.status.resolution = .insufficient →
        Outcome w w.eval := by
      intro hr
      have hval : ValidSpec w.topic.spec := inv.valid (hr.imp id .inl)
      have hnext : w.next = match w.topic.spec with
          | .computed n rf =>
            if (w.generated n rf).isEmpty then { resolution := .insufficient }
            else { resolution := .provisioned, map := w.generated n rf }
          | .assigned maps =>
            if (assignedNext maps w.spus).resolution = .provisioned then
              { assignedNext maps w.spus with parts := newPartitions w.topic w.store }
            else assignedNext maps w.spus
          | .mirror configs =>
            if (w.generated configs.length 1).isEmpty then { resolution := .insufficient }
            else { resolution := .provisioned, map := w.generated configs.length 1, mirrors := numbered configs } := by
        unfold World.next
        rcases hr with hr | hr <;> rw [hr] <;> rfl
      rw [he, hnext]
      cases hs : w.topic.spec with
      | computed n rf =>
        dsimp only
        by_cases hg : (w.generated n rf).isEmpty = true
        · rw [if_pos hg]
          exact .resolved .insufficient .none nofun (fun _ => hval) nofun
            fun maps hm => by rw [hs] at hm; cases hm
        · rw [if_neg hg]
          have hne : w.generated n rf ≠ [] := fun c => hg (by rw [c]; rfl)
          have hold : ∀ i rs, w.topic.status.map.get i = some rs → rs.length = rf ∧ rs.Nodup := by
            intro i rs h
            have := inv.covers.fits h
            rw [hs] at this
            exact this
          have ⟨g1, g2, g3⟩ := generated_covers w n rf hold hne
          have hm : w.topic.status.mirrors = [] := by rw [inv.mirrors, hs]; rfl
          have hlt : ∀ i rs, w.topic.status.map.get i = some rs → i < n := fun i rs h => by
            have h1 := get_lt inv.covers.1 h
            have h2 := inv.small
            rw [hs] at h2
            exact Nat.lt_of_lt_of_le h1 h2
          have := Outcome.assigned (w := w) (w.generated n rf) hr hne
            (by rw [hs]; exact ⟨g1, fun i hi => g2 i hi⟩) fun i rs h => g3 i (hlt i rs h) rs h
          unfold NextState.applyTo
          rw [hs] at this
          simp only [if_neg hg, List.isEmpty_nil, if_true, hm, List.foldl_nil]
          exact this
      | mirror cs =>
        dsimp only
        by_cases hg : (w.generated cs.length 1).isEmpty = true
        · rw [if_pos hg]
          exact .resolved .insufficient .none nofun (fun _ => hval) nofun
            fun maps hm => by rw [hs] at hm; cases hm
        · rw [if_neg hg]
          have hne : w.generated cs.length 1 ≠ [] := fun c => hg (by rw [c]; rfl)
          have hold : ∀ i rs, w.topic.status.map.get i = some rs → rs.length = 1 ∧ rs.Nodup := by
            intro i rs h
            have := inv.covers.fits h
            rw [hs] at this
            have hl : rs.length = 1 := this
            refine ⟨hl, ?_⟩
            match rs, hl with
            | [x], _ => simp
          have ⟨g1, g2, g3⟩ := generated_covers w cs.length 1 hold hne
          have hlt : ∀ i rs, w.topic.status.map.get i = some rs → i < cs.length := fun i rs h => by
            have h1 := get_lt inv.covers.1 h
            have h2 := inv.small
            rw [hs] at h2
            exact Nat.lt_of_lt_of_le h1 h2
          have hcov : Covers w.topic.spec (w.generated cs.length 1) w.topic.spec.partitions := by
            rw [hs]
            exact ⟨g1, fun i hi => by
              obtain ⟨rs, a, b, _⟩ := g2 i hi
              exact ⟨rs, a, b⟩⟩
          have := Outcome.assigned (w := w) (w.generated cs.length 1) hr hne hcov
            fun i rs h => g3 i (hlt i rs h) rs h
          have hlen : (w.generated cs.length 1).length = cs.length := by
            have := hcov.length
            rw [hs] at this
            exact this
          have hcs : cs ≠ [] := by
            intro c
            have h0 : (w.generated cs.length 1).length = 0 := by rw [hlen, c]; rfl
            exact hne (List.length_eq_zero_iff.1 h0)
          have hnum : (numbered cs).isEmpty = false := by
            cases cs with
            | nil => exact absurd rfl hcs
            | cons c rest => simp [numbered, List.range_succ_eq_map]
          unfold NextState.applyTo
          rw [hs] at this
          simp only [hnum, if_neg hg, List.foldl_nil]
          have hmf : mirrorsFor (.mirror cs) (w.generated cs.length 1).length = numbered cs := by
            show numbered (cs.take (w.generated cs.length 1).length) = numbered cs
            rw [hlen, List.take_length]
          rw [hmf] at this
          exact this
      | assigned maps =>
        dsimp only
        have hmap : w.topic.status.map = [] := by
          rcases inv.fixedMap maps hs with h | ⟨_, h | h⟩
          · exact h
          · rcases hr with hr | hr <;> rw [hr] at h <;> cases h
          · rcases hr with hr | hr <;> rw [hr] at h <;> cases h
        have hm : w.topic.status.mirrors = [] := by rw [inv.mirrors, hs]; rfl
        have ⟨a1, a2, a3⟩ := assignedNext_mirrors maps w.spus
        rcases a3 with ⟨b1, b2⟩ | ⟨b1, b2, b3, b4, b5⟩
        · rw [if_neg (by rw [b1]; nofun)]
          unfold NextState.applyTo
          rw [a1, a2, b2, b1]
          exact .resolved .invalidConfig _ nofun (fun h => by rcases h with h | h <;> cases h) nofun
            fun _ _ => .inl hmap
        · rw [if_pos b1]
          have hnew : newPartitions w.topic w.store = [] := by
            unfold newPartitions; rw [hmap]; rfl
          unfold NextState.applyTo
          simp only [hnew, a1, b1, b2, b3, hm, List.foldl_nil, List.isEmpty_nil, if_true]
          have hemp : (mapOfSpec maps).isEmpty = false := by
            cases hx : mapOfSpec maps with
            | nil => exact absurd hx b4
            | cons _ _ => rfl
          rw [hs] at hval
          have := Outcome.assigned (w := w) (mapOfSpec maps) hr b4
            (by rw [hs]; exact covers_mapOfSpec hval) fun i rs h => by rw [hmap] at h; cases h
          rw [hs] at this
          simp only [hemp]
          exact this
    cases hr : w.topic.status.resolution with
    | init => exact validated (.inl hr) (by unfold World.next; rw [hr])
    | invalidConfig => exact validated (.inr hr) (by unfold World.next; rw [hr])
    | pending => exact scheduled (.inl hr)
    | insufficient => exact scheduled (.inr hr)
    | provisioned =>
      have hnext : w.next = { resolution := .provisioned, parts := newPartitions w.topic w.store } := by
        unfold World.next; rw [hr]
      rw [he, hnext]
      unfold NextState.applyTo
      simp only [List.isEmpty_nil, if_true]
      rw [apply_new w.store inv.covers.nodup]
      have := Outcome.created (w := w) hr (by
        have : ¬ w.topic.status.map.length < w.topic.spec.partitions := fun c => hshort ⟨hr, c⟩
        omega)
      dsimp only at this
      rw [hr] at this
      exact this
    | deleting =>
      have hnext : w.next = { resolution := .deleting } := by unfold World.next; rw [hr]
      rw [he, hnext]
      refine .resolved .deleting .none nofun (fun h => by rcases h with h | h <;> cases h) (fun _ => hr)
        fun _ _ => .inr rfl

/-! ## The invariant holds -/

theorem range_get_none {m : RMap} {n i : Nat} (hk : m.map (·.1) = List.range n) (h : n ≤ i) : m.get i = none := by
  cases hg : m.get i with
  | none => rfl
  | some rs => exact absurd (get_lt hk hg) (by omega)

theorem find_numbered (l : List Nat) (i : Nat) :
    ((numbered l).find? fun m => m.1 == i).map (·.2) = l[i]? := by
  have key : ∀ (l : List Nat) (k : Nat),
      (((List.range' k l.length).zip l).find? fun m => m.1 == i).map (·.2) = if k ≤ i then l[i - k]? else none := by
    intro l
    induction l with
    | nil => intro k; simp
    | cons x rest ih =>
      intro k
      rw [List.length_cons, List.range'_succ, List.zip_cons_cons, List.find?_cons]
      by_cases h : k = i
      · subst h; simp
      · have : (k == i) = false := by simpa using h
        simp only [this]
        rw [ih (k + 1)]
        by_cases h2 : k ≤ i
        · rw [if_pos (by omega), if_pos h2]
          have : i - k = (i - (k + 1)) + 1 := by omega
          rw [this, List.getElem?_cons_succ]
        · rw [if_neg (by omega), if_neg h2]
  have := key l 0
  rw [if_pos (Nat.zero_le _)] at this
  unfold numbered
  rw [List.range_eq_range']
  exact this

theorem mirrorsFor_find {spec : TSpec} {k i : Nat} (hi : i < k) :
    ((mirrorsFor spec k).find? fun m => m.1 == i).map (·.2) =
      match spec with
      | .mirror cs => cs[i]?
      | _ => none := by
  cases spec with
  | computed n rf => rfl
  | assigned maps => rfl
  | mirror cs =>
    show ((numbered (cs.take k)).find? fun m => m.1 == i).map (·.2) = cs[i]?
    rw [find_numbered, List.getElem?_take, if_pos hi]

/-- a map that grows keeps the partitions right -/
theorem agree_mono {w : World} (inv : Inv w) (m : RMap)
    (hk : ∀ i rs, w.topic.status.map.get i = some rs → m.get i = some rs)
    (hm : m.map (·.1) = List.range m.length) :
    ∀ p ∈ w.store, p.key.topic = w.topic.name →
      m.get p.key.idx = some p.spec.replicas ∧
      p.mirror = ((mirrorsFor w.topic.spec m.length).find? fun x => x.1 == p.key.idx).map (·.2) ∧
      p.settings = w.topic.settings := by
  intro p hp hn
  obtain ⟨h1, h2, h3⟩ := inv.agree p hp hn
  refine ⟨hk _ _ h1, ?_, h3⟩
  rw [h2, inv.mirrors, mirrorsFor_find (get_lt inv.covers.1 h1), mirrorsFor_find (get_lt hm (hk _ _ h1))]

theorem inv_outcome {w w' : World} (inv : Inv w) (h : Outcome w w') : Inv w' := by
  cases h with
  | resolved r reason hp hv hd ha =>
    refine ⟨inv.sized, ?_, inv.covers, inv.small, ?_, inv.mapValid, ?_, inv.mirrors, inv.agree⟩
    · rintro (h | h | h)
      · exact hv (.inl h)
      · exact hv (.inr h)
      · exact absurd h hp
    · exact fun h => absurd h hp
    · intro maps hm
      rcases inv.fixedMap maps hm with h | ⟨h1, h2⟩
      · exact .inl h
      · rcases ha maps hm with h | h
        · exact .inl h
        · exact .inr ⟨h1, .inr h⟩
  | assigned m hr hne hc hk =>
    have hlen := hc.length
    have hval := inv.valid (hr.imp id .inl)
    refine ⟨inv.sized, fun _ => hval, ?_, ?_, fun _ => hne, fun _ => hval, ?_, rfl, ?_⟩
    · show Covers w.topic.spec m m.length
      rw [hlen]; exact hc
    · exact Nat.le_of_eq hlen
    · intro maps hm
      right
      have hm' : w.topic.spec = .assigned maps := hm
      refine ⟨?_, .inl rfl⟩
      show m.length = maps.length
      rw [hlen, hm']; rfl
    · exact agree_mono inv m hk (by rw [hlen]; exact hc.1)
  | created hr hl =>
    refine ⟨inv.sized, inv.valid, inv.covers, inv.small, inv.nonempty, inv.mapValid, inv.fixedMap, inv.mirrors, ?_⟩
    intro p hp hn
    rcases List.mem_append.1 hp with hp | hp
    · exact inv.agree p hp hn
    · obtain ⟨e, he, _, rfl⟩ := mem_newPartitions.1 hp
      exact ⟨inv.covers.get he, rfl, rfl⟩

theorem inv_eval {w : World} (inv : Inv w) : Inv w.eval := by
  by_cases hd : w.topic.deleting = true
  · rw [eval_deleting w hd]
    split
    · exact inv
    · refine ⟨inv.sized, ?_, inv.covers, inv.small, nofun, inv.mapValid, ?_, inv.mirrors, ?_⟩
      · rintro (h | h | h) <;> cases h
      · intro maps hm
        rcases inv.fixedMap maps hm with h | ⟨h1, _⟩
        · exact .inl h
        · exact .inr ⟨h1, .inr rfl⟩
      · intro p hp hn
        exact inv.agree p (List.mem_filter.1 hp).1 hn
  · exact inv_outcome inv (outcome w inv (by simpa using hd))

theorem inv_step {w w' : World} (inv : Inv w) (h : Step w w') : Inv w' := by
  cases h with
  | eval => exact inv_eval inv
  | spus s => exact ⟨inv.sized, inv.valid, inv.covers, inv.small, inv.nonempty, inv.mapValid, inv.fixedMap, inv.mirrors, inv.agree⟩
  | store s hs =>
    refine ⟨inv.sized, inv.valid, inv.covers, inv.small, inv.nonempty, inv.mapValid, inv.fixedMap, inv.mirrors, ?_⟩
    intro p hp hn
    obtain ⟨q, hq, e1, e2, e3, e4⟩ := hs p hp hn
    have := inv.agree q hq (by rw [e1]; exact hn)
    rw [e1, e2, e3, e4] at this
    exact this
  | addPartitions n rf k hs =>
    have hc := inv.covers
    have hsm := inv.small
    have hmi := inv.mirrors
    rw [hs] at hc hsm hmi
    refine ⟨trivial, ?_, ⟨hc.1, hc.2⟩, ?_, inv.nonempty, ?_, nofun, ?_, inv.agree⟩
    · intro h
      have := inv.valid h
      rw [hs] at this
      have h1 : 0 < n ∧ 0 < rf := this
      exact ⟨Nat.lt_of_lt_of_le h1.1 (Nat.le_add_right _ _), h1.2⟩
    · exact Nat.le_trans hsm (Nat.le_add_right n k)
    · intro h
      have := inv.mapValid h
      rw [hs] at this
      have h1 : 0 < n ∧ 0 < rf := this
      exact ⟨Nat.lt_of_lt_of_le h1.1 (Nat.le_add_right _ _), h1.2⟩
    · exact hmi
  | addMirror cs c hs =>
    have hc := inv.covers
    have hsm := inv.small
    have hmi := inv.mirrors
    rw [hs] at hc hsm hmi
    have hsm' : w.topic.status.map.length ≤ cs.length := hsm
    refine ⟨trivial, fun _ => trivial, ⟨hc.1, hc.2⟩, ?_, inv.nonempty, fun _ => trivial, nofun, ?_, inv.agree⟩
    · show w.topic.status.map.length ≤ (cs ++ [c]).length
      rw [List.length_append]; omega
    · show w.topic.status.mirrors = numbered ((cs ++ [c]).take w.topic.status.map.length)
      rw [List.take_append_of_le_length hsm']
      exact hmi
  | markDeleted => exact ⟨inv.sized, inv.valid, inv.covers, inv.small, inv.nonempty, inv.mapValid, inv.fixedMap, inv.mirrors, inv.agree⟩

theorem inv_steps {w w' : World} (inv : Inv w) (h : Steps w w') : Inv w' := by
  induction h with
  | refl => exact inv
  | tail _ hs ih => exact inv_step ih hs

/-! ## C42 -/

/-- **C42.** Whatever happens around a topic: while it is provisioned its map is not empty and assigns
replicas, as the (valid) configuration asks, to the partitions `0, …, k-1` for some `k` not above the
configured number (which may have been raised meanwhile). -/
theorem C42_provisioned (w₀ w : World) (h₀ : Fresh w₀) (hs : Sized w₀.topic.spec) (h : Steps w₀ w)
    (hr : w.topic.status.resolution = .provisioned) :
    ValidSpec w.topic.spec ∧ ∃ k, 0 < k ∧ k ≤ w.topic.spec.partitions ∧
      Covers w.topic.spec w.topic.status.map k := by
  have inv := inv_steps (inv_fresh h₀ hs) h
  refine ⟨inv.valid (.inr (.inr hr)), _, ?_, inv.small, inv.covers⟩
  have := inv.nonempty hr
  cases hm : w.topic.status.map with
  | nil => exact absurd hm this
  | cons a b => simp

/-- **C42.** An evaluation makes a topic provisioned only with a complete map: replicas for exactly
the configured partitions. -/
theorem C42_complete (w₀ w : World) (h₀ : Fresh w₀) (hs : Sized w₀.topic.spec) (h : Steps w₀ w)
    (hb : w.topic.status.resolution ≠ .provisioned)
    (ha : w.eval.topic.status.resolution = .provisioned) :
    0 < w.topic.spec.partitions ∧
      Covers w.topic.spec w.eval.topic.status.map w.topic.spec.partitions := by
  have inv := inv_steps (inv_fresh h₀ hs) h
  by_cases hd : w.topic.deleting = true
  · rw [eval_deleting w hd] at ha
    split at ha
    · exact absurd ha hb
    · cases ha
  · have ho := outcome w inv (by simpa using hd)
    revert ho ha
    generalize w.eval = w'
    intro ha ho
    cases ho with
    | resolved r reason hp => exact absurd ha hp
    | assigned m hr hne hc hk =>
      refine ⟨?_, hc⟩
      rw [← hc.length]
      cases m with
      | nil => exact absurd rfl hne
      | cons a b => simp
    | created hr => exact absurd hr hb

/-- **C42.** A topic has partitions only if its configuration is valid. -/
theorem C42_invalid_no_partitions (w₀ w : World) (h₀ : Fresh w₀) (hs : Sized w₀.topic.spec) (h : Steps w₀ w)
    (hinv : ¬ ValidSpec w.topic.spec) : ∀ p ∈ w.store, p.key.topic ≠ w.topic.name := by
  have inv := inv_steps (inv_fresh h₀ hs) h
  intro p hp hn
  apply hinv
  apply inv.mapValid
  intro c
  have := (inv.agree p hp hn).1
  rw [c] at this
  cases this

/-- **C42.** Partitions are only created for provisioned topics. -/
theorem C42_only_provisioned (w₀ w : World) (h₀ : Fresh w₀) (hs : Sized w₀.topic.spec) (h : Steps w₀ w)
    (p : Partition) (hp : p ∈ w.eval.store) (hnew : p ∉ w.store) :
    w.topic.status.resolution = .provisioned ∧ w.eval.topic.status.resolution = .provisioned ∧
      p.key.topic = w.topic.name := by
  have inv := inv_steps (inv_fresh h₀ hs) h
  by_cases hd : w.topic.deleting = true
  · rw [eval_deleting w hd] at hp
    split at hp
    · exact absurd hp hnew
    · exact absurd (List.mem_filter.1 hp).1 hnew
  · have ho := outcome w inv (by simpa using hd)
    revert ho hp
    generalize w.eval = w'
    intro hp ho
    cases ho with
    | resolved => exact absurd hp hnew
    | assigned => exact absurd hp hnew
    | created hr =>
      refine ⟨hr, hr, ?_⟩
      rcases List.mem_append.1 hp with hp | hp
      · exact absurd hp hnew
      · obtain ⟨e, _, _, rfl⟩ := mem_newPartitions.1 hp
        rfl

/-- `n` evaluations -/
def evals : Nat → World → World
  | 0, w => w
  | n + 1, w => evals n w.eval

/-- Nothing is left to do: evaluating changes nothing, the topic is in a final state, and if it is
provisioned its map is complete and every partition exists. -/
structure Settled (w : World) : Prop where
  fixed : w.eval = w
  final : w.topic.status.resolution ≠ .init ∧ w.topic.status.resolution ≠ .pending
  ready : w.topic.status.resolution = .provisioned → w.topic.deleting = false →
    w.topic.status.map.length = w.topic.spec.partitions ∧
    ∀ i < w.topic.spec.partitions, ∃ p ∈ w.store, p.key = ⟨w.topic.name, i⟩

theorem eval_frame (w : World) : w.eval.spus = w.spus ∧ w.eval.topic.spec = w.topic.spec ∧
    w.eval.topic.deleting = w.topic.deleting ∧ w.eval.topic.name = w.topic.name := by
  unfold World.eval World.perform
  cases w.actions.status <;> exact ⟨rfl, rfl, rfl, rfl⟩

theorem fixed_of_next (w : World) (hd : w.topic.deleting = false)
    (hs : ¬ (w.topic.status.resolution = .provisioned ∧ w.topic.status.map.length < w.topic.spec.partitions))
    (h1 : w.next.resolution = w.topic.status.resolution) (h2 : w.next.reason = w.topic.status.reason)
    (h3 : w.next.parts = []) : w.eval = w := by
  rw [eval_eq w hd hs, h3]
  have ⟨h4, h5⟩ := next_same w h1
  have : w.next.applyTo w.topic.status = w.topic.status := by
    unfold NextState.applyTo
    rw [h1, h2, h4, h5]
    rfl
  rw [this]
  rfl

theorem settle_provisioned {w : World} (inv : Inv w) (hd : w.topic.deleting = false)
    (hr : w.topic.status.resolution = .provisioned)
    (hl : w.topic.spec.partitions ≤ w.topic.status.map.length) : Settled w.eval := by
  have hns : ¬ (w.topic.status.resolution = .provisioned ∧ w.topic.status.map.length < w.topic.spec.partitions) :=
    fun c => by omega
  have hnext : w.next = { resolution := .provisioned, parts := newPartitions w.topic w.store } := by
    unfold World.next; rw [hr]
  have he : w.eval = { w with
      topic := { w.topic with status := { w.topic.status with reason := .none } }
      store := w.store ++ newPartitions w.topic w.store } := by
    rw [eval_eq w hd hns, hnext]
    unfold NextState.applyTo
    simp only [List.isEmpty_nil, if_true]
    rw [apply_new w.store inv.covers.nodup, hr]
  have hlen : w.topic.status.map.length = w.topic.spec.partitions := Nat.le_antisymm inv.small hl
  rw [he]
  refine ⟨?_, ?_, ?_⟩
  · refine fixed_of_next _ hd hns ?_ ?_ ?_
    · unfold World.next; simp only [hr]
    · unfold World.next; simp only [hr]
    · unfold World.next
      simp only [hr]
      exact newPartitions_again (t := w.topic) w.store rfl rfl
  · show w.topic.status.resolution ≠ _ ∧ w.topic.status.resolution ≠ _
    rw [hr]; exact ⟨nofun, nofun⟩
  · refine fun _ _ => ⟨hlen, fun i hi => ?_⟩
    have hi' : i < w.topic.status.map.length := by rw [hlen]; exact hi
    obtain ⟨rs, hg, _⟩ := inv.covers.2 i hi'
    by_cases hex : ∀ q ∈ w.store, q.key ≠ ⟨w.topic.name, i⟩
    · exact ⟨_, List.mem_append_right _ (mem_newPartitions.2 ⟨(i, rs), get_mem hg, hex, rfl⟩), rfl⟩
    · have : ∃ q ∈ w.store, q.key = ⟨w.topic.name, i⟩ := by
        apply Classical.byContradiction
        intro c
        exact hex fun q hq e => c ⟨q, hq, e⟩
      obtain ⟨q, hq, e⟩ := this
      exact ⟨q, List.mem_append_left _ hq, e⟩

/-- every broker named in a manual map exists -/
def KnownBrokers (w : World) : Prop :=
  ∀ maps, w.topic.spec = .assigned maps → ∀ p ∈ maps, ∀ s ∈ p.replicas, ∃ u ∈ w.spus, u.id = s

theorem mem_uniqueSpus {maps : List PMap} {s : Int} (h : s ∈ uniqueSpus maps) :
    ∃ p ∈ maps, s ∈ p.replicas := by
  have inner : ∀ (rs acc : List Int),
      s ∈ rs.foldl (fun acc s => if acc.contains s then acc else acc ++ [s]) acc → s ∈ acc ∨ s ∈ rs := by
    intro rs
    induction rs with
    | nil => exact fun acc h => .inl h
    | cons r rest ih =>
      intro acc h
      rw [List.foldl_cons] at h
      rcases ih _ h with h | h
      · split at h
        · exact .inl h
        · rcases List.mem_append.1 h with h | h
          · exact .inl h
          · exact .inr (by rw [List.mem_singleton.1 h]; exact List.mem_cons_self)
      · exact .inr (List.mem_cons_of_mem _ h)
  have outer : ∀ (l : List PMap) (acc : List Int),
      s ∈ l.foldl (fun acc p => p.replicas.foldl (fun acc s => if acc.contains s then acc else acc ++ [s]) acc) acc →
      s ∈ acc ∨ ∃ p ∈ l, s ∈ p.replicas := by
    intro l
    induction l with
    | nil => exact fun acc h => .inl h
    | cons p rest ih =>
      intro acc h
      rw [List.foldl_cons] at h
      rcases ih _ h with h | ⟨q, hq, h⟩
      · rcases inner _ _ h with h | h
        · exact .inl h
        · exact .inr ⟨p, List.mem_cons_self, h⟩
      · exact .inr ⟨q, List.mem_cons_of_mem _ hq, h⟩
  rcases outer maps [] h with h | h
  · cases h
  · exact h

theorem assignedNext_known {maps : List PMap} {spus : List Spu} (hw : WellFormed maps)
    (h : ∀ p ∈ maps, ∀ s ∈ p.replicas, ∃ u ∈ spus, u.id = s) :
    (assignedNext maps spus).resolution = .provisioned := by
  unfold assignedNext
  have hf : (uniqueSpus maps).find? (fun s => !(spus.any fun u => u.id == s)) = none := by
    apply List.find?_eq_none.2
    intro s hs
    obtain ⟨p, hp, hsp⟩ := mem_uniqueSpus hs
    obtain ⟨u, hu, e⟩ := h p hp s hsp
    simpa using ⟨u, hu, e⟩
  rw [hf]
  have hne : (mapOfSpec maps).isEmpty = false := by
    have := (covers_mapOfSpec hw).length
    cases hm : mapOfSpec maps with
    | nil =>
      rw [hm] at this
      exact absurd (List.length_eq_zero_iff.1 this.symm) hw.1
    | cons _ _ => rfl
  simp only [hne]
  rfl

/-- a pending topic becomes provisioned or, at once finally, insufficient -/
theorem settle_pending {w : World} (inv : Inv w) (hd : w.topic.deleting = false) (hk : KnownBrokers w)
    (hr : w.topic.status.resolution = .pending ∨ w.topic.status.resolution = .insufficient) :
    Settled w.eval ∨ Settled w.eval.eval := by
  have hns : ¬ (w.topic.status.resolution = .provisioned ∧ w.topic.status.map.length < w.topic.spec.partitions) := by
    rintro ⟨c, _⟩
    rcases hr with h | h <;> rw [h] at c <;> cases c
  have prov : w.next.resolution = .provisioned → Settled w.eval.eval := by
    intro hp
    have ho := outcome w inv hd
    have hi := inv_eval inv
    have hres : w.eval.topic.status.resolution = .provisioned := by
      rw [eval_eq w hd hns]; exact hp
    have hfr := eval_frame w
    refine settle_provisioned hi (by rw [hfr.2.2.1]; exact hd) hres ?_
    rw [hfr.2.1]
    revert hres ho
    generalize w.eval = w'
    intro ho hres
    cases ho with
    | resolved r reason hp' => exact absurd hres hp'
    | assigned m _ _ hc _ => exact Nat.le_of_eq hc.length.symm
    | created hr' => rcases hr with h | h <;> rw [h] at hr' <;> cases hr'
  have insuff : w.next = { resolution := .insufficient } →
      (∀ w' : World, w'.topic.status.resolution = .insufficient → w'.topic.spec = w.topic.spec →
        w'.spus = w.spus → w'.store = w.store → w'.topic.status.map = w.topic.status.map →
        w'.next = { resolution := .insufficient }) → Settled w.eval := by
    intro hn hagain
    have he : w.eval = { w with topic := { w.topic with status :=
        { w.topic.status with resolution := .insufficient, reason := .none } } } := by
      rw [eval_eq w hd hns, hn]; rfl
    rw [he]
    have hn' := hagain { w with topic := { w.topic with status :=
        { w.topic.status with resolution := .insufficient, reason := .none } } } rfl rfl rfl rfl rfl
    refine ⟨fixed_of_next _ hd ?_ ?_ ?_ ?_, ⟨nofun, nofun⟩, nofun⟩
    · rintro ⟨c, _⟩; cases c
    · rw [hn']
    · rw [hn']
    · rw [hn']
  cases hs : w.topic.spec with
  | computed n rf =>
    by_cases hg : (w.generated n rf).isEmpty = true
    · left
      refine insuff ?_ fun w' h1 h2 h3 h4 h5 => ?_
      · unfold World.next
        rcases hr with hr | hr <;> rw [hr, hs] <;> simp only [if_pos hg]
      · unfold World.next
        have : w'.generated n rf = w.generated n rf := by unfold World.generated; rw [h3, h4, h5]
        rw [h1, h2, hs]
        simp only [this, if_pos hg]
    · right
      refine prov ?_
      unfold World.next
      rcases hr with hr | hr <;> rw [hr, hs] <;> simp only [if_neg hg]
  | mirror cs =>
    by_cases hg : (w.generated cs.length 1).isEmpty = true
    · left
      refine insuff ?_ fun w' h1 h2 h3 h4 h5 => ?_
      · unfold World.next
        rcases hr with hr | hr <;> rw [hr, hs] <;> simp only [if_pos hg]
      · unfold World.next
        have : w'.generated cs.length 1 = w.generated cs.length 1 := by
          unfold World.generated; rw [h3, h4, h5]
        rw [h1, h2, hs]
        simp only [this, if_pos hg]
    · right
      refine prov ?_
      unfold World.next
      rcases hr with hr | hr <;> rw [hr, hs] <;> simp only [if_neg hg]
  | assigned maps =>
    right
    refine prov ?_
    have hv := inv.valid (hr.imp id .inl)
    rw [hs] at hv
    have ha := assignedNext_known hv (hk maps hs)
    unfold World.next
    rcases hr with hr | hr <;> rw [hr, hs] <;> simp [ha]

/-- **C42 (partial).** Without outside changes, three evaluations always reach a state in which
nothing is left to do.

Missing from the full claim: manual maps naming a broker that does not exist.  For them the claim is
false, `C42_violated_livelock`. -/
theorem C42_fixed_point_partial (w₀ w : World) (h₀ : Fresh w₀) (hs : Sized w₀.topic.spec) (h : Steps w₀ w)
    (hk : KnownBrokers w) : ∃ n ≤ 3, Settled (evals n w) := by
  have inv := inv_steps (inv_fresh h₀ hs) h
  have known : ∀ v : World, v.spus = w.spus → v.topic.spec = w.topic.spec → KnownBrokers v := by
    intro v e1 e2 maps hm
    rw [e1]
    exact hk maps (e2 ▸ hm)
  by_cases hd : w.topic.deleting = true
  · refine ⟨1, by omega, ?_⟩
    show Settled w.eval
    rw [eval_deleting w hd]
    split
    · rename_i hr
      refine ⟨?_, by rw [hr]; exact ⟨nofun, nofun⟩, fun c => by rw [hr] at c; cases c⟩
      rw [eval_deleting w hd, if_pos hr]
    · refine ⟨?_, ⟨nofun, nofun⟩, nofun⟩
      rw [eval_deleting]
      · exact if_pos rfl
      · exact hd
  · have hd' : w.topic.deleting = false := by simpa using hd
    have fr := eval_frame w
    have viaPending : ∀ v : World, Inv v → v.topic.deleting = false → v.spus = w.spus →
        v.topic.spec = w.topic.spec →
        v.topic.status.resolution = .pending ∨ v.topic.status.resolution = .insufficient →
        ∃ n ≤ 2, Settled (evals n v) := by
      intro v hi hvd e1 e2 hr
      rcases settle_pending hi hvd (known v e1 e2) hr with h | h
      · exact ⟨1, by omega, h⟩
      · exact ⟨2, by omega, h⟩
    have fromStart : w.topic.status.resolution = .init ∨ w.topic.status.resolution = .invalidConfig →
        ∃ n ≤ 3, Settled (evals n w) := by
      intro hr
      have hns : ¬ (w.topic.status.resolution = .provisioned ∧ w.topic.status.map.length < w.topic.spec.partitions) := by
        rintro ⟨c, _⟩
        rcases hr with h | h <;> rw [h] at c <;> cases c
      have hnext : w.next = validateSpec w.topic.spec := by
        unfold World.next
        rcases hr with hr | hr <;> rw [hr]
      have he : w.eval = { w with
          topic := { w.topic with status := (validateSpec w.topic.spec).applyTo w.topic.status } } := by
        rw [eval_eq w hd' hns, hnext, (validateSpec_none _).2.1]; rfl
      by_cases hv : ValidSpec w.topic.spec
      · obtain ⟨n, hn, hset⟩ := viaPending w.eval (inv_eval inv) (by rw [fr.2.2.1]; exact hd') fr.1 fr.2.1
          (by rw [he, validateSpec_valid inv.sized hv]; exact .inl rfl)
        exact ⟨n + 1, by omega, hset⟩
      · have hinv := validateSpec_invalid inv.sized hv
        refine ⟨1, by omega, ?_⟩
        show Settled w.eval
        have hres : w.eval.topic.status.resolution = .invalidConfig := by rw [he]; exact hinv
        have hnext' : w.eval.next = validateSpec w.topic.spec := by
          unfold World.next
          rw [hres, fr.2.1]
        refine ⟨fixed_of_next _ (by rw [fr.2.2.1]; exact hd') ?_ ?_ ?_ ?_, ?_, ?_⟩
        · rintro ⟨c, _⟩; rw [hres] at c; cases c
        · rw [hnext', hinv, hres]
        · rw [hnext', he]; rfl
        · rw [hnext']; exact (validateSpec_none _).2.1
        · rw [hres]; exact ⟨nofun, nofun⟩
        · intro c; rw [hres] at c; cases c
    cases hr : w.topic.status.resolution with
    | init => exact fromStart (.inl hr)
    | invalidConfig => exact fromStart (.inr hr)
    | pending =>
      obtain ⟨n, hn, hset⟩ := viaPending w inv hd' rfl rfl (.inl hr)
      exact ⟨n, by omega, hset⟩
    | insufficient =>
      obtain ⟨n, hn, hset⟩ := viaPending w inv hd' rfl rfl (.inr hr)
      exact ⟨n, by omega, hset⟩
    | provisioned =>
      by_cases hl : w.topic.spec.partitions ≤ w.topic.status.map.length
      · exact ⟨1, by omega, settle_provisioned inv hd' hr hl⟩
      · obtain ⟨n, hn, hset⟩ := viaPending w.eval (inv_eval inv) (by rw [fr.2.2.1]; exact hd') fr.1 fr.2.1
          (by rw [eval_short w hd' hr (by omega)]; exact .inl rfl)
        exact ⟨n + 1, by omega, hset⟩
    | deleting =>
      refine ⟨1, by omega, ?_⟩
      have hnext : ∀ v : World, v.topic.status.resolution = .deleting → v.next = { resolution := .deleting } := by
        intro v hv; unfold World.next; rw [hv]
      have he : w.eval = { w with topic := { w.topic with status := { w.topic.status with reason := .none } } } := by
        rw [eval_eq w hd' (by rintro ⟨c, _⟩; rw [hr] at c; cases c), hnext w hr]
        unfold NextState.applyTo
        simp only [List.isEmpty_nil, if_true, List.foldl_nil, hr]
      show Settled w.eval
      rw [he]
      have hn2 := hnext { w with topic := { w.topic with status := { w.topic.status with reason := .none } } } hr
      refine ⟨fixed_of_next _ hd' (by rintro ⟨c, _⟩; exact absurd (hr.symm.trans c) nofun) ?_ ?_ ?_, ?_, ?_⟩
      · rw [hn2]; exact hr.symm
      · rw [hn2]
      · rw [hn2]
      · show w.topic.status.resolution ≠ _ ∧ w.topic.status.resolution ≠ _
        rw [hr]; exact ⟨nofun, nofun⟩
      · exact fun c => absurd (hr.symm.trans c) nofun

/-- a fresh topic with a manual map that names the unknown broker 5 -/
def manual : World :=
  { topic := ⟨"a", .assigned [⟨0, [5]⟩], TStatus.new, false, 0⟩, store := [], spus := [⟨0, true⟩] }

theorem evals_succ (n : Nat) (w : World) : evals (n + 1) w = (evals n w).eval := by
  induction n generalizing w with
  | zero => rfl
  | succ n ih => exact ih w.eval

theorem manual_cycle (n : Nat) :
    evals (2 * n + 1) manual =
      { manual with topic := { manual.topic with status := ⟨.pending, [], [], .pending⟩ } } ∧
    evals (2 * n + 2) manual =
      { manual with topic := { manual.topic with status := ⟨.invalidConfig, [], [], .unknownSpu 5⟩ } } := by
  induction n with
  | zero => exact ⟨rfl, rfl⟩
  | succ n ih =>
    have h1 : evals (2 * (n + 1) + 1) manual =
        { manual with topic := { manual.topic with status := ⟨.pending, [], [], .pending⟩ } } := by
      show evals (2 * n + 2 + 1) manual = _
      rw [evals_succ, ih.2]
      rfl
    refine ⟨h1, ?_⟩
    rw [evals_succ, h1]
    rfl

/-- **C42 is false** for a manual map that names an unknown broker: the topic is alternately reported
pending and invalid, and no evaluation is ever the last one. -/
theorem C42_violated_livelock : Fresh manual ∧ Sized manual.topic.spec ∧ ValidSpec manual.topic.spec ∧
    ∀ n, ¬ Settled (evals n manual) := by
  refine ⟨⟨rfl, nofun⟩, ?_, ?_, fun n hs => ?_⟩
  · show 1 ≤ 2 ^ 32
    decide
  · refine ⟨nofun, 1, by decide, fun i hi => ?_⟩
    obtain rfl : i = 0 := Nat.lt_one_iff.1 hi
    exact ⟨rfl, rfl, show [(5 : Int)].Nodup by decide, show ∀ s ∈ [(5 : Int)], 0 ≤ s by decide⟩
  · have hf := hs.fixed
    rw [← evals_succ] at hf
    rcases Nat.mod_two_eq_zero_or_one n with h | h
    · obtain ⟨k, rfl⟩ : ∃ k, n = 2 * k := ⟨n / 2, by omega⟩
      cases k with
      | zero => exact hs.final.1 rfl
      | succ k =>
        have h2 := (manual_cycle k).2
        have h3 := (manual_cycle (k + 1)).1
        rw [show 2 * (k + 1) = 2 * k + 2 from rfl] at hf h3
        rw [h2, h3] at hf
        exact absurd (congrArg (·.topic.status.resolution) hf) (by decide)
    · obtain ⟨k, rfl⟩ : ∃ k, n = 2 * k + 1 := ⟨n / 2, by omega⟩
      have h2 := (manual_cycle k).1
      exact absurd (congrArg (·.topic.status.resolution) h2) hs.final.2

/-- the hypotheses of `C42_fixed_point_partial` can be met, by a topic that still needs all three
evaluations -/
example : ∃ w : World, Fresh w ∧ Sized w.topic.spec ∧ KnownBrokers w ∧ w.topic.spec.partitions = 3 ∧
    (evals 2 w).store = [] ∧ ((evals 3 w).store.map (·.spec.replicas)) = [[0, 1], [1, 0], [0, 1]] ∧
    (evals 3 w).topic.status.resolution = .provisioned :=
  ⟨{ topic := ⟨"a", .computed 3 2, TStatus.new, false, 7⟩, store := [], spus := [⟨0, true⟩, ⟨1, true⟩] },
    ⟨rfl, nofun⟩, trivial, nofun, rfl, by decide +kernel, by decide +kernel, by decide +kernel⟩

/-! ## C43 -/

/-- What reconciling must produce from the partitions `s` of a topic called `name`: the old
partitions, and for every entry of the map without partition a new one. -/
structure Reconciled (name : String) (map : RMap) (mirrors : List (Nat × Nat)) (settings : Nat)
    (s s' : List Partition) : Prop where
  /-- existing partitions are untouched, nothing else is created -/
  kept : ∃ new, s' = s ++ new ∧ (new.map (·.key)).Nodup ∧
    ∀ p ∈ new,
      /- it was missing -/
      (∀ q ∈ s, q.key ≠ p.key) ∧
      /- it belongs to an entry of the map and has the recorded replicas -/
      p.key.topic = name ∧ (p.key.idx, p.spec.replicas) ∈ map ∧
      /- the first replica leads -/
      (∀ r rest, p.spec.replicas = r :: rest → p.spec.leader = r) ∧
      p.settings = settings ∧
      (∀ m ∈ mirrors, (∀ m' ∈ mirrors, m'.1 = m.1 → m' = m) → m.1 = p.key.idx → p.mirror = some m.2) ∧
      p.status = PStatus.init
  /-- nothing is missing any more -/
  all : ∀ e ∈ map, ∃ p ∈ s', p.key = ⟨name, e.1⟩

theorem find_unique {l : List (Nat × Nat)} {m : Nat × Nat} (hm : m ∈ l)
    (hu : ∀ m' ∈ l, m'.1 = m.1 → m' = m) : (l.find? fun x => x.1 == m.1) = some m := by
  cases hf : l.find? fun x => x.1 == m.1 with
  | none => exact absurd (BEq.refl m.1) (List.find?_eq_none.1 hf m hm)
  | some x =>
    have h1 := List.mem_of_find?_eq_some hf
    have h2 := List.find?_some hf
    rw [hu x h1 (by simpa using h2)]

/-- **C43.** Reconciling a provisioned topic creates exactly the missing partitions, each with the
replicas recorded in the topic's map and its first replica as leader, and leaves existing ones
untouched — for every map with distinct keys and whatever is in the store. -/
theorem C43_creates_missing (w : World) (hd : w.topic.deleting = false)
    (hr : w.topic.status.resolution = .provisioned)
    (hl : w.topic.spec.partitions ≤ w.topic.status.map.length)
    (hk : (w.topic.status.map.map (·.1)).Nodup) :
    Reconciled w.topic.name w.topic.status.map w.topic.status.mirrors w.topic.settings
      w.store w.eval.store := by
  have hns : ¬ (w.topic.status.resolution = .provisioned ∧ w.topic.status.map.length < w.topic.spec.partitions) :=
    fun c => by omega
  have hnext : w.next = { resolution := .provisioned, parts := newPartitions w.topic w.store } := by
    unfold World.next; rw [hr]
  have he : w.eval.store = w.store ++ newPartitions w.topic w.store := by
    rw [eval_eq w hd hns, hnext]
    exact apply_new w.store hk
  rw [he]
  refine ⟨⟨_, rfl, newPartitions_nodup w.store hk, fun p hp => ?_⟩, fun e hm => ?_⟩
  · obtain ⟨e, hm, hnew, rfl⟩ := mem_newPartitions.1 hp
    refine ⟨hnew, rfl, hm, ?_, rfl, ?_, rfl⟩
    · intro r rest h
      show (match e.2 with | [] => 0 | r :: _ => r) = r
      have h : e.2 = r :: rest := h
      rw [h]
    · intro m hm' hu hi
      have hi : m.1 = e.1 := hi
      show (w.topic.status.mirrors.find? _).map _ = _
      rw [← hi, find_unique hm' hu]
      rfl
  · by_cases hex : ∀ q ∈ w.store, q.key ≠ ⟨w.topic.name, e.1⟩
    · exact ⟨_, List.mem_append_right _ (mem_newPartitions.2 ⟨e, hm, hex, rfl⟩), rfl⟩
    · have : ∃ q ∈ w.store, q.key = ⟨w.topic.name, e.1⟩ := by
        apply Classical.byContradiction
        intro c
        exact hex fun q hq e => c ⟨q, hq, e⟩
      obtain ⟨q, hq, e⟩ := this
      exact ⟨q, List.mem_append_left _ hq, e⟩

/-- **C43.** Reconciling again does nothing. -/
theorem C43_idempotent (w : World) (hd : w.topic.deleting = false)
    (hr : w.topic.status.resolution = .provisioned)
    (hl : w.topic.spec.partitions ≤ w.topic.status.map.length)
    (hk : (w.topic.status.map.map (·.1)).Nodup) :
    w.eval.eval = w.eval := by
  have hns : ¬ (w.topic.status.resolution = .provisioned ∧ w.topic.status.map.length < w.topic.spec.partitions) :=
    fun c => by omega
  have hnext : w.next = { resolution := .provisioned, parts := newPartitions w.topic w.store } := by
    unfold World.next; rw [hr]
  have he : w.eval = { w with
      topic := { w.topic with status := { w.topic.status with reason := .none } }
      store := w.store ++ newPartitions w.topic w.store } := by
    rw [eval_eq w hd hns, hnext]
    unfold NextState.applyTo
    simp only [List.isEmpty_nil, if_true]
    rw [apply_new w.store hk, hr]
  rw [he]
  refine fixed_of_next _ hd hns ?_ ?_ ?_
  · unfold World.next; simp only [hr]
  · unfold World.next; simp only [hr]
  · unfold World.next
    simp only [hr]
    exact newPartitions_again (t := w.topic) w.store rfl rfl

/-- **C43.** Reachable topics meet the hypothesis on the map. -/
theorem C43_keys (w₀ w : World) (h₀ : Fresh w₀) (hs : Sized w₀.topic.spec) (h : Steps w₀ w) :
    (w.topic.status.map.map (·.1)).Nodup :=
  (inv_steps (inv_fresh h₀ hs) h).covers.nodup

/-- one of three partitions exists, led by its second replica after an election; it is kept as it is -/
def halfDone : World :=
  { topic := ⟨"a", .computed 3 2, ⟨.provisioned, [(0, [0, 1]), (1, [1, 0]), (2, [0, 1])], [], .none⟩, false, 7⟩
    store := [⟨⟨"a", 1⟩, ⟨0, [1, 0]⟩, none, 7, PStatus.init⟩, ⟨⟨"b", 0⟩, ⟨1, [1]⟩, none, 3, PStatus.init⟩]
    spus := [⟨0, true⟩, ⟨1, true⟩] }

example : halfDone.topic.deleting = false ∧ halfDone.topic.status.resolution = .provisioned ∧
    halfDone.topic.spec.partitions ≤ halfDone.topic.status.map.length ∧
    (halfDone.topic.status.map.map (·.1)).Nodup ∧
    (halfDone.eval.store.map fun p => (p.key.idx, p.spec.leader)) = [(1, 0), (0, 1), (0, 0), (2, 0)] := by
  decide +kernel

/-! ## C53 -/

/-- **C53.** While evaluations do not overlap: every partition of the topic has the replicas recorded
for it in the topic's map, the recorded mirror configuration and the topic's settings. -/
theorem C53_agree (w₀ w : World) (h₀ : Fresh w₀) (hs : Sized w₀.topic.spec) (h : Steps w₀ w)
    (p : Partition) (hp : p ∈ w.store) (ht : p.key.topic = w.topic.name) :
    w.topic.status.map.get p.key.idx = some p.spec.replicas ∧ p.settings = w.topic.settings :=
  have := (inv_steps (inv_fresh h₀ hs) h).agree p hp ht
  ⟨this.1, this.2.2⟩

theorem stable_step {w w' : World} (inv : Inv w) (h : Step w w') {i : Nat} {rs : List Int}
    (hg : w.topic.status.map.get i = some rs) : w'.topic.status.map.get i = some rs := by
  cases h with
  | eval =>
    by_cases hd : w.topic.deleting = true
    · rw [eval_deleting w hd]
      split
      · exact hg
      · exact hg
    · have ho := outcome w inv (by simpa using hd)
      revert ho
      generalize w.eval = w'
      intro ho
      cases ho with
      | resolved => exact hg
      | assigned m _ _ _ hk => exact hk i rs hg
      | created => exact hg
  | spus => exact hg
  | store => exact hg
  | addPartitions => exact hg
  | addMirror => exact hg
  | markDeleted => exact hg

/-- **C53.** Replicas once assigned to a partition are never changed by the topic's controller,
whatever happens: brokers coming and going, partitions being added, the topic being deleted. -/
theorem C53_stable (w₀ w w' : World) (h₀ : Fresh w₀) (hs : Sized w₀.topic.spec) (h : Steps w₀ w)
    (h' : Steps w w') (i : Nat) (rs : List Int) (hg : w.topic.status.map.get i = some rs) :
    w'.topic.status.map.get i = some rs := by
  have inv := inv_steps (inv_fresh h₀ hs) h
  suffices Inv w' ∧ w'.topic.status.map.get i = some rs from this.2
  induction h' with
  | refl => exact ⟨inv, hg⟩
  | tail _ hst ih => exact ⟨inv_step ih.1 hst, stable_step ih.1 hst ih.2⟩

/-- a fresh topic, the same topic provisioned, with another partition and another broker -/
def early : World := { topic := ⟨"a", .computed 1 1, TStatus.new, false, 7⟩, store := [], spus := [⟨0, true⟩] }

def grown : World :=
  { evals 3 early with
    topic := { (evals 3 early).topic with spec := .computed (1 + 1) 1 }
    spus := [⟨1, true⟩] }

theorem steps_evals (n : Nat) (w : World) : Steps w (evals n w) := by
  induction n with
  | zero => exact .refl _
  | succ n ih => rw [evals_succ]; exact .tail ih (.eval _)

theorem grown_steps : Steps (evals 3 early) grown := by
  refine .tail (.tail (.refl _) (.addPartitions _ 1 1 1 ?_)) (.spus _ [⟨1, true⟩])
  exact ((eval_frame _).2.1.trans (eval_frame _).2.1).trans (eval_frame _).2.1

theorem Steps.trans {a b c : World} (h : Steps a b) (h' : Steps b c) : Steps a c := by
  induction h' with
  | refl => exact h
  | tail _ hs ih => exact .tail ih hs

/-- the hypotheses of `C53_stable` are met by a run in which partitions are added and a broker
disappears; the old assignment stays -/
example : Fresh early ∧ Sized early.topic.spec ∧ Steps early (evals 3 early) ∧
    Steps (evals 3 early) (evals 2 grown) ∧ (evals 3 early).topic.status.map = [(0, [0])] ∧
    (evals 2 grown).topic.status.map = [(0, [0]), (1, [1])] :=
  ⟨⟨rfl, nofun⟩, trivial, steps_evals _ _, Steps.trans grown_steps (steps_evals _ _), by decide +kernel,
    by decide +kernel⟩

/-- **C53 is false** when an evaluation reads the topic before the result of an earlier evaluation has
come back through the metadata store.  The topic is pending; broker 0 is online and is chosen; before
that result is visible, broker 0 goes offline and broker 1 comes, so a second evaluation of the same
pending topic chooses broker 1.  The partition is created from the first result, the map is then
overwritten by the second, and further evaluations repair nothing. -/
theorem C53_violated_stale :
    let start : World := { topic := ⟨"a", .computed 1 1, ⟨.pending, [], [], .pending⟩, false, 0⟩,
                           store := [], spus := [⟨0, true⟩, ⟨1, false⟩] }
    let first := start.actions
    let second := { start with spus := [⟨0, false⟩, ⟨1, true⟩] : World }.actions
    let afterFirst := { start with spus := [⟨0, false⟩, ⟨1, true⟩] : World }.perform first
    let third := afterFirst.actions
    let w := (afterFirst.perform second).perform third
    w.topic.status.map = [(0, [1])] ∧ (w.store.map fun p => (p.key.idx, p.spec.replicas)) = [(0, [0])] ∧
      w.eval.topic = w.topic ∧ w.eval.store = w.store := by
  decide +kernel

end Verif.Props
