import Verif.Sc.Sort

/-!
# Replica placement (`fluvio-sc/src/controllers/scheduler/partition.rs`, `stores/partition/store.rs`)
-/

namespace Verif.Sc

/-- `ReplicaMap = BTreeMap<PartitionId, Vec<SpuId>>` (fluvio-types/src/lib.rs:17) as the list of its
entries in key order; keys are partition ids (`u32`) and values SPU ids (`i32`). -/
abbrev RMap := List (Nat × List Int)

/-- `BTreeMap::get` -/
def RMap.get (m : RMap) (p : Nat) : Option (List Int) :=
  (m.find? fun e => e.1 == p).map (·.2)

/-- `BTreeMap::insert` -/
def RMap.insert (m : RMap) (p : Nat) (rs : List Int) : RMap :=
  match m with
  | [] => [(p, rs)]
  | e :: rest => if p < e.1 then (p, rs) :: e :: rest
    else if p = e.1 then (p, rs) :: rest
    else e :: RMap.insert rest p rs

/-- What the scheduler reads of an SPU: `spec.id` and `status.is_online()` —
stores/spu/store.rs:119-126 -/
structure Spu where
  id : Int
  online : Bool
deriving DecidableEq

/-- What the scheduler reads of an existing partition: `PartitionSpec.leader`, `.replicas` —
fluvio-controlplane-metadata/src/partition/spec.rs:17-20 -/
structure PartSpec where
  leader : Int
  replicas : List Int
deriving DecidableEq

/-- `PartitionCountSpu`, two `u16` counters — store.rs:190-194 -/
structure Load where
  leaders : Nat
  followers : Nat
deriving DecidableEq

/-- `ReplicaSchedulingGroups`, a map from SPU id to counters — store.rs:86.  An absent entry behaves
as the default (store.rs:127-129, 145-147), so the map is a total function here. -/
abbrev Groups := Int → Load

def Groups.empty : Groups := fun _ => ⟨0, 0⟩

/-- `increase_leaders` — store.rs:141-149; `u16` addition wraps in release builds. -/
def Groups.incLeaders (g : Groups) (s : Int) : Groups :=
  fun t => if t = s then { g t with leaders := ((g t).leaders + 1) % 65536 } else g t

/-- `increase_followers` — store.rs:151-159 -/
def Groups.incFollowers (g : Groups) (s : Int) : Groups :=
  fun t => if t = s then { g t with followers := ((g t).followers + 1) % 65536 } else g t

/-- `leader_weight`, `follower_weight`, selected by `SpuWeightSelection` — store.rs:184-205, 123-126 -/
def Load.weight (c : Load) (asLeader : Bool) : Nat := if asLeader then c.leaders else c.followers

/-- the loop of `find_suitable_spu`, with the best SPU so far and its weight — store.rs:116-136 -/
def scan (g : Groups) (anti : List Int) (asLeader : Bool) : List Int → Option Int → Nat → Option Int
  | [], cur, _ => cur
  | s :: rest, cur, min =>
    if anti.contains s then scan g anti asLeader rest cur min
    else if (g s).weight asLeader < min then scan g anti asLeader rest (some s) ((g s).weight asLeader)
    else scan g anti asLeader rest cur min

/-- `find_suitable_spu` — store.rs:108-139; the initial minimum is `u16::MAX`. -/
def findSuitable (g : Groups) (spus anti : List Int) (asLeader : Bool) : Option Int :=
  scan g anti asLeader spus none 65535

/-- the body of the loop of `group_by_spu` — store.rs:331-338 -/
def Groups.addPart (g : Groups) (p : PartSpec) : Groups :=
  p.replicas.foldl (fun g r => if r ≠ p.leader then g.incFollowers r else g) (g.incLeaders p.leader)

/-- `group_by_spu` — store.rs:328-342 -/
def groupBySpu (ps : List PartSpec) : Groups := ps.foldl Groups.addPart Groups.empty

/-- the loop over `r_idx` in `generate_partitions_without_rack`: `k` replicas still to place, the next
one has index `r` — partition.rs:142-163 -/
def place (online : List Int) : Nat → Nat → Groups → List Int → Option (Groups × List Int)
  | 0, _, g, reserved => some (g, reserved)
  | k + 1, r, g, reserved =>
    match findSuitable g online reserved (r == 0) with
    | none => none
    | some s => place online k (r + 1) (if r = 0 then g.incLeaders s else g.incFollowers s)
        (reserved ++ [s])

/-- a partition that keeps its replicas — partition.rs:134-140 -/
def kept (actual : RMap) (rf p : Nat) : Option (List Int) :=
  match actual.get p with
  | some rs => if rs.length = rf then some rs else none
  | none => none

/-- the loop over `p_idx`: `k` partitions left, the next one is `p` — partition.rs:130-165 -/
def assign (online : List Int) (rf : Nat) (actual : RMap) : Nat → Nat → Groups → RMap → RMap
  | 0, _, _, m => m
  | k + 1, p, g, m =>
    match kept actual rf p with
    | some rs => assign online rf actual k (p + 1) g (m.insert p rs)
    | none =>
      match place online rf 0 g [] with
      | none => []
      | some (g', rs) => assign online rf actual k (p + 1) g' (m.insert p rs)

/-- `online_spu_ids` followed by `sort_unstable` — stores/spu/store.rs:119-126, partition.rs:124-125 -/
def onlineIds (spus : List Spu) : List Int :=
  sortInts ((spus.filter (·.online)).map (·.id))

/-- `generate_replica_map_for_topic` with the scheduler just initialised (`PartitionScheduler::init`,
partition.rs:76-86, as in topics/reducer.rs:164-166) — partition.rs:100-168.  `actual` is the topic's
present map (`None` is the same as an empty map).  The SPU count is a `usize` cast to `u32`; fewer
than 2^32 SPUs are assumed. -/
def generate (spus : List Spu) (parts : List PartSpec) (partitions rf : Nat) (actual : RMap) : RMap :=
  if spus.length < rf then []
  else assign (onlineIds spus) rf actual partitions 0 (groupBySpu parts) []

/-! ## Maps -/

namespace RMap

/-- keys in increasing order -/
def Sorted (m : RMap) : Prop := m.Pairwise fun a b => a.1 < b.1

theorem get_insert (m : RMap) (p q : Nat) (rs : List Int) :
    (m.insert p rs).get q = if q = p then some rs else m.get q := by
  induction m with
  | nil =>
    simp only [insert, get, List.find?_cons, List.find?_nil]
    by_cases h : q = p
    · subst h; simp
    · have : (p == q) = false := by simpa using fun e => h e.symm
      simp [this, h]
  | cons e rest ih =>
    unfold insert
    split
    · simp only [get, List.find?_cons]
      by_cases h : q = p
      · subst h; simp
      · have : (p == q) = false := by simpa using fun e => h e.symm
        simp [this, h]
    · split
      · rename_i _ hp
        simp only [get, List.find?_cons]
        by_cases h : q = p
        · subst h; simp
        · have : (p == q) = false := by simpa using fun e => h e.symm
          have h2 : (e.1 == q) = false := by rw [← hp]; exact this
          simp [this, h, h2]
      · simp only [get, List.find?_cons]
        by_cases h : e.1 == q
        · have : q ≠ p := by
            have : e.1 = q := by simpa using h
            omega
          simp [h, this]
        · have h' : (e.1 == q) = false := by simpa using h
          simp only [h']
          exact ih

theorem mem_insert_key (m : RMap) (p : Nat) (rs : List Int) (x : Nat × List Int)
    (h : x ∈ m.insert p rs) : x = (p, rs) ∨ x ∈ m := by
  induction m with
  | nil => left; simpa [insert] using h
  | cons e rest ih =>
    unfold insert at h
    split at h
    · rcases List.mem_cons.1 h with rfl | h
      · exact .inl rfl
      · exact .inr h
    · split at h
      · rcases List.mem_cons.1 h with rfl | h
        · exact .inl rfl
        · exact .inr (List.mem_cons_of_mem _ h)
      · rcases List.mem_cons.1 h with rfl | h
        · exact .inr List.mem_cons_self
        · rcases ih h with h | h
          · exact .inl h
          · exact .inr (List.mem_cons_of_mem _ h)

theorem Sorted.insert {m : RMap} (h : Sorted m) (p : Nat) (rs : List Int) : Sorted (m.insert p rs) := by
  induction m with
  | nil => simp [RMap.insert, Sorted]
  | cons e rest ih =>
    have ⟨h1, h2⟩ := List.pairwise_cons.1 h
    unfold RMap.insert
    split
    · rename_i hlt
      refine List.pairwise_cons.2 ⟨fun a ha => ?_, h⟩
      rcases List.mem_cons.1 ha with rfl | ha
      · exact hlt
      · exact Nat.lt_trans hlt (h1 a ha)
    · split
      · rename_i _ hp
        refine List.pairwise_cons.2 ⟨fun a ha => ?_, h2⟩
        show p < a.1
        rw [hp]; exact h1 a ha
      · rename_i hlt hne
        refine List.pairwise_cons.2 ⟨fun a ha => ?_, ih h2⟩
        rcases mem_insert_key _ _ _ _ ha with rfl | ha
        · show e.1 < p; omega
        · exact h1 a ha

/-- inserting above all keys appends -/
theorem insert_last (m : RMap) (p : Nat) (rs : List Int) (h : ∀ e ∈ m, e.1 < p) :
    m.insert p rs = m ++ [(p, rs)] := by
  induction m with
  | nil => rfl
  | cons e rest ih =>
    have he := h e List.mem_cons_self
    unfold insert
    rw [if_neg (by omega), if_neg (by omega), ih fun a ha => h a (List.mem_cons_of_mem _ ha)]
    rfl

end RMap

/-! ## Choosing an SPU -/

theorem scan_spec (g : Groups) (anti : List Int) (b : Bool) (l : List Int) (cur : Option Int) (min : Nat)
    (hcur : ∀ s, cur = some s → (g s).weight b = min) :
    match scan g anti b l cur min with
    | none => cur = none ∧ ∀ t ∈ l, t ∉ anti → min ≤ (g t).weight b
    | some s => (cur = some s ∨ (s ∈ l ∧ s ∉ anti)) ∧ (g s).weight b ≤ min ∧
        (cur = none → (g s).weight b < min) ∧
        ∀ t ∈ l, t ∉ anti → (g s).weight b ≤ (g t).weight b := by
  induction l generalizing cur min with
  | nil =>
    unfold scan
    cases cur with
    | none => exact ⟨rfl, nofun⟩
    | some s => exact ⟨.inl rfl, by rw [hcur s rfl]; exact Nat.le_refl _, nofun, nofun⟩
  | cons x rest ih =>
    unfold scan
    by_cases hx : anti.contains x = true
    · rw [if_pos hx]
      have hx' : x ∈ anti := by simpa using hx
      have := ih cur min hcur
      revert this
      cases scan g anti b rest cur min with
      | none =>
        exact fun ⟨a, c⟩ => ⟨a, fun t ht hn => by
          rcases List.mem_cons.1 ht with rfl | ht
          · exact absurd hx' hn
          · exact c t ht hn⟩
      | some s =>
        exact fun ⟨a, c, d, e⟩ => ⟨a.imp id fun ⟨x, y⟩ => ⟨List.mem_cons_of_mem _ x, y⟩, c, d, fun t ht hn => by
          rcases List.mem_cons.1 ht with rfl | ht
          · exact absurd hx' hn
          · exact e t ht hn⟩
    · rw [if_neg hx]
      have hx' : x ∉ anti := by simpa using hx
      by_cases hlt : (g x).weight b < min
      · rw [if_pos hlt]
        have := ih (some x) ((g x).weight b) (by intro s hs; cases hs; rfl)
        revert this
        cases scan g anti b rest (some x) ((g x).weight b) with
        | none => exact fun ⟨a, _⟩ => nomatch a
        | some s =>
          refine fun ⟨a, c, _, e⟩ => ⟨?_, by omega, fun _ => by omega, fun t ht hn => ?_⟩
          · rcases a with a | ⟨h1, h2⟩
            · cases a; exact .inr ⟨List.mem_cons_self, hx'⟩
            · exact .inr ⟨List.mem_cons_of_mem _ h1, h2⟩
          · rcases List.mem_cons.1 ht with rfl | ht
            · exact c
            · exact e t ht hn
      · rw [if_neg hlt]
        have := ih cur min hcur
        revert this
        cases scan g anti b rest cur min with
        | none =>
          exact fun ⟨a, c⟩ => ⟨a, fun t ht hn => by
            rcases List.mem_cons.1 ht with rfl | ht
            · omega
            · exact c t ht hn⟩
        | some s =>
          exact fun ⟨a, c, d, e⟩ => ⟨a.imp id fun ⟨x, y⟩ => ⟨List.mem_cons_of_mem _ x, y⟩, c, d, fun t ht hn => by
            rcases List.mem_cons.1 ht with rfl | ht
            · omega
            · exact e t ht hn⟩

theorem findSuitable_some {g : Groups} {l anti : List Int} {b : Bool} {s : Int}
    (h : findSuitable g l anti b = some s) :
    s ∈ l ∧ s ∉ anti ∧ (g s).weight b < 65535 ∧
      ∀ t ∈ l, t ∉ anti → (g s).weight b ≤ (g t).weight b := by
  have := scan_spec g anti b l none 65535 nofun
  unfold findSuitable at h
  rw [h] at this
  obtain ⟨a, _, d, e⟩ := this
  rcases a with a | ⟨a1, a2⟩
  · cases a
  · exact ⟨a1, a2, d rfl, e⟩

theorem findSuitable_none {g : Groups} {l anti : List Int} {b : Bool}
    (h : findSuitable g l anti b = none) : ∀ t ∈ l, t ∉ anti → 65535 ≤ (g t).weight b := by
  have := scan_spec g anti b l none 65535 nofun
  unfold findSuitable at h
  rw [h] at this
  exact this.2

theorem mem_onlineIds (spus : List Spu) (s : Int) :
    s ∈ onlineIds spus ↔ ∃ u ∈ spus, u.online = true ∧ u.id = s := by
  unfold onlineIds
  rw [mem_sortInts]
  constructor
  · intro h
    obtain ⟨u, hu, e⟩ := List.mem_map.1 h
    have := List.mem_filter.1 hu
    exact ⟨u, this.1, this.2, e⟩
  · rintro ⟨u, hu, ho, e⟩
    exact List.mem_map.2 ⟨u, List.mem_filter.2 ⟨hu, ho⟩, e⟩

end Verif.Sc
