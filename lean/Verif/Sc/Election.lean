import Verif.Sc.Scheduler

/-!
# Leader election (`fluvio-sc/src/controllers/partitions/reducer.rs`, `stores/partition/store.rs`,
`stores/partition/policy.rs`, `fluvio-controlplane-metadata/src/partition/status.rs`)
-/

namespace Verif.Sc

/-- `ReplicaStatus`; `-1` means unknown — status.rs:177-181 -/
structure RStatus where
  spu : Int
  hw : Int
  leo : Int
deriving DecidableEq

/-- `ReplicaStatus::default` — status.rs:189-197 -/
def RStatus.unknown : RStatus := ⟨-1, -1, -1⟩

/-- `PartitionResolution` — status.rs:154-167 -/
inductive PResolution where
  | offline | online | leaderOffline | electionLeaderFound | outOfStorage
deriving DecidableEq

/-- `PartitionStatus` — status.rs:26-45; the deletion mark is left out. -/
structure PStatus where
  resolution : PResolution
  leader : RStatus
  lsr : Nat
  replicas : List RStatus
  size : Int
  baseOffset : Int
deriving DecidableEq

/-- `PartitionStatus::default` — status.rs:47-59 -/
def PStatus.init : PStatus := ⟨.offline, .unknown, 0, [], -2, 0⟩

/-- `is_online` — status.rs:107-109 -/
def PStatus.isOnline (s : PStatus) : Bool := s.resolution == .online

/-- `is_readable` — status.rs:111-116 -/
def PStatus.isReadable (s : PStatus) : Bool := s.resolution == .online || s.resolution == .outOfStorage

/-- `ReplicaKey` -/
structure ReplicaKey where
  topic : String
  idx : Nat
deriving DecidableEq

/-- a partition in the store: key, spec (leader and replicas) and status -/
structure Part where
  key : ReplicaKey
  spec : PartSpec
  status : PStatus
deriving DecidableEq

/-- actions on the partition store, as produced by the controllers (`WSAction`) -/
inductive PAction where
  | updateSpec (key : ReplicaKey) (spec : PartSpec)
  | updateStatus (key : ReplicaKey) (status : PStatus)
deriving DecidableEq

/-- carrying out an action on the object with this key (absent keys are ignored) —
fluvio-stream-dispatcher/src/dispatcher/metadata.rs, `process_ws_action`.  Actions are carried out
in the order they are sent; what the metadata server does with them is not modelled. -/
def applyAction (ps : List Part) : PAction → List Part
  | .updateSpec k s => ps.map fun p => if p.key = k then { p with spec := s } else p
  | .updateStatus k s => ps.map fun p => if p.key = k then { p with status := s } else p

def applyActions (ps : List Part) (as : List PAction) : List Part := as.foldl applyAction ps

/-- `SimplePolicy::potential_leader_score`; `None` is `NotSuitable` — policy.rs:34-47.  The lag is an
`i64` and is cast to `u16`.  Offsets are assumed not to overflow an `i64` when subtracted. -/
def score (r leader : RStatus) : Option Nat :=
  let lag := leader.leo - r.leo
  if lag < 4 then some (lag % 65536).toNat else none

/-- one suitable replica compared with the best so far — store.rs:375-380 -/
def pick (best : Option (Int × Nat)) (spu : Int) (sc : Nat) : Option (Int × Nat) :=
  match best with
  | some (_, b) => if sc < b then some (spu, sc) else best
  | none => some (spu, sc)

/-- the loop of `candidate_leader`: best candidate so far with its score — store.rs:368-384 -/
def candidateLoop (online : List Int) (leader : RStatus) : List RStatus → Option (Int × Nat) → Option (Int × Nat)
  | [], best => best
  | r :: rest, best =>
    if online.contains r.spu then
      match score r leader with
      | some sc => candidateLoop online leader rest (pick best r.spu sc)
      | none => candidateLoop online leader rest best
    else candidateLoop online leader rest best

/-- `candidate_leader` — store.rs:361-386 -/
def candidateLeader (online : List Int) (st : PStatus) : Option Int :=
  (candidateLoop online st.leader st.replicas none).map (·.1)

/-- what `force_election_spu_off` does for one partition — reducer.rs:154-199 -/
def offActions (online : List Int) (off : Int) (p : Part) : List PAction :=
  if p.spec.leader = off then
    match candidateLeader online p.status with
    | some l => [.updateSpec p.key { p.spec with leader := l }]
    | none =>
      if p.status.isOnline then [.updateStatus p.key { p.status with resolution := .leaderOffline }]
      else []
  else []

/-- `force_election_spu_off` — reducer.rs:137-201; `online` is `spu_store.online_status()`. -/
def electionOff (online : List Int) (off : Int) (ps : List Part) : List PAction :=
  ps.flatMap (offActions online off)

/-- what `force_election_spu_on` does for one partition — reducer.rs:218-256 -/
def onActions (on : Int) (p : Part) : List PAction :=
  if p.status.isReadable then []
  else if p.spec.leader ≠ on then
    (p.status.replicas.filter fun r => r.spu == on && (score r p.status.leader).isSome).map fun _ =>
      .updateSpec p.key { p.spec with leader := on }
  else [.updateStatus p.key { p.status with resolution := .online }]

/-- `force_election_spu_on` — reducer.rs:205-258 -/
def electionOn (on : Int) (ps : List Part) : List PAction := ps.flatMap (onActions on)

/-- `SpuStatusResolution` -/
inductive SpuState where
  | online | offline | init
deriving DecidableEq

/-- `update_election_from_spu_changes` — reducer.rs:109-133.  The partition store is the same for all
changes of the batch: actions are only sent afterwards (partitions/controller.rs:150-158). -/
def elections (online : List Int) (changes : List (Int × SpuState)) (ps : List Part) : List PAction :=
  (changes.filter fun c => c.2 == .offline).flatMap (fun c => electionOff online c.1 ps) ++
  (changes.filter fun c => c.2 == .online).flatMap (fun c => electionOn c.1 ps)

/-! ## Status reports -/

/-- `ReplicaStatus::merge`: the new value, and the old one if the SPU changes — store.rs:438-466 -/
def RStatus.merge (self source : RStatus) : RStatus × Option RStatus :=
  if source.spu = -1 then (self, none)
  else if self.spu = -1 ∨ self.spu = source.spu then
    (⟨source.spu, if source.hw ≠ -1 then source.hw else self.hw,
      if source.leo ≠ -1 then source.leo else self.leo⟩, none)
  else (⟨source.spu, source.hw, source.leo⟩, some ⟨self.spu, self.hw, self.leo⟩)

/-- one reported replica merged into the list: `find_status`, then `merge` or `push` —
store.rs:346-348, 398-404 -/
def mergeReplica (l : List RStatus) (r : RStatus) : List RStatus :=
  match l with
  | [] => [r]
  | x :: rest => if x.spu = r.spu then (x.merge r).1 :: rest else x :: mergeReplica rest r

/-- `PartitionStatus::merge` followed by `update_lrs` — store.rs:390-428 -/
def PStatus.merge (self other : PStatus) : PStatus :=
  let lm := self.leader.merge other.leader
  let rs := match lm.2 with
    | some old => self.replicas ++ [old]
    | none => self.replicas
  let rs := other.replicas.foldl mergeReplica rs
  let rs := rs.filter fun r => r.spu ≠ lm.1.spu
  { self with
    resolution := other.resolution
    size := other.size
    leader := lm.1
    replicas := rs
    lsr := (rs.filter fun r => r.leo ≠ -1 && lm.1.leo == r.leo).length }

/-- `receive_lrs_update` for one report of a leader — private_server.rs:213-247 -/
def PStatus.report (self : PStatus) (leader : RStatus) (replicas : List RStatus) (size base : Int) : PStatus :=
  self.merge ⟨.online, leader, 0, replicas, size, base⟩

/-! ## Facts: the candidate -/

/-- an online replica that lags fewer than four records behind the recorded leader -/
def Eligible (online : List Int) (st : PStatus) (r : RStatus) : Prop :=
  r ∈ st.replicas ∧ r.spu ∈ online ∧ st.leader.leo - r.leo < 4

theorem score_some {r leader : RStatus} {n : Nat} (h : score r leader = some n) :
    leader.leo - r.leo < 4 ∧ n = ((leader.leo - r.leo) % 65536).toNat := by
  unfold score at h
  simp only at h
  split at h
  · exact ⟨by assumption, (Option.some.inj h).symm⟩
  · cases h

theorem score_none {r leader : RStatus} (h : score r leader = none) : ¬ leader.leo - r.leo < 4 := by
  unfold score at h
  simp only at h
  split at h
  · cases h
  · assumption

theorem candidateLoop_spec (online : List Int) (ld : RStatus) (l : List RStatus) (best : Option (Int × Nat)) :
    match candidateLoop online ld l best with
    | none => best = none ∧ ∀ r ∈ l, r.spu ∈ online → score r ld = none
    | some (s, b) =>
      ((best = some (s, b)) ∨ ∃ r ∈ l, r.spu ∈ online ∧ r.spu = s ∧ score r ld = some b) ∧
      (∀ x, best = some x → b ≤ x.2) ∧
      ∀ r ∈ l, r.spu ∈ online → ∀ sc, score r ld = some sc → b ≤ sc := by
  induction l generalizing best with
  | nil =>
    unfold candidateLoop
    cases best with
    | none => exact ⟨rfl, nofun⟩
    | some x => exact ⟨.inl rfl, fun y hy => by cases hy; exact Nat.le_refl _, nofun⟩
  | cons r rest ih =>
    by_cases hon : online.contains r.spu = true
    · have hon' : r.spu ∈ online := by simpa using hon
      cases hsc : score r ld with
      | none =>
        have e : candidateLoop online ld (r :: rest) best = candidateLoop online ld rest best := by
          rw [candidateLoop, if_pos hon, hsc]
        rw [e]
        have := ih best
        revert this
        cases candidateLoop online ld rest best with
        | none =>
          exact fun ⟨a, c⟩ => ⟨a, fun x hx ho => by
            rcases List.mem_cons.1 hx with rfl | hx
            · exact hsc
            · exact c x hx ho⟩
        | some x =>
          obtain ⟨s, b⟩ := x
          refine fun ⟨a, c, d⟩ => ⟨a.imp id fun ⟨x, h1, h2⟩ => ⟨x, List.mem_cons_of_mem _ h1, h2⟩, c, ?_⟩
          intro x hx ho sc hs
          rcases List.mem_cons.1 hx with rfl | hx
          · rw [hsc] at hs; cases hs
          · exact d x hx ho sc hs
      | some sc0 =>
        have e : candidateLoop online ld (r :: rest) best = candidateLoop online ld rest
            (pick best r.spu sc0) := by
          rw [candidateLoop, if_pos hon, hsc]
        rw [e]
        have := ih (pick best r.spu sc0)
        revert this
        cases candidateLoop online ld rest (pick best r.spu sc0) with
        | none =>
          rintro ⟨a, _⟩
          cases best with
          | none => cases a
          | some x => simp only [pick] at a; split at a <;> cases a
        | some y =>
          obtain ⟨s, b⟩ := y
          rintro ⟨a, c, d⟩
          have hb : b ≤ sc0 ∧ ∀ x, best = some x → b ≤ x.2 := by
            cases best with
            | none => exact ⟨c _ rfl, nofun⟩
            | some x =>
              simp only [pick] at c
              split at c
              · have := c _ rfl
                exact ⟨this, fun y hy => by cases hy; simp at this; omega⟩
              · have := c _ rfl
                exact ⟨by omega, fun y hy => by cases hy; exact this⟩
          refine ⟨?_, hb.2, ?_⟩
          · rcases a with a | ⟨x, h1, h2⟩
            · cases best with
              | none =>
                have := Option.some.inj a
                cases this
                exact .inr ⟨r, List.mem_cons_self, hon', rfl, hsc⟩
              | some x =>
                simp only [pick] at a
                split at a
                · have := Option.some.inj a
                  cases this
                  exact .inr ⟨r, List.mem_cons_self, hon', rfl, hsc⟩
                · exact .inl a
            · exact .inr ⟨x, List.mem_cons_of_mem _ h1, h2⟩
          · intro x hx ho sc hs
            rcases List.mem_cons.1 hx with rfl | hx
            · rw [hsc] at hs; cases hs; exact hb.1
            · exact d x hx ho sc hs
    · have e : candidateLoop online ld (r :: rest) best = candidateLoop online ld rest best := by
        rw [candidateLoop, if_neg hon]
      have hon' : r.spu ∉ online := by simpa using hon
      rw [e]
      have := ih best
      revert this
      cases candidateLoop online ld rest best with
      | none =>
        exact fun ⟨a, c⟩ => ⟨a, fun x hx ho => by
          rcases List.mem_cons.1 hx with rfl | hx
          · exact absurd ho hon'
          · exact c x hx ho⟩
      | some x =>
        obtain ⟨s, b⟩ := x
        refine fun ⟨a, c, d⟩ => ⟨a.imp id fun ⟨x, h1, h2⟩ => ⟨x, List.mem_cons_of_mem _ h1, h2⟩, c, ?_⟩
        intro x hx ho sc hs
        rcases List.mem_cons.1 hx with rfl | hx
        · exact absurd ho hon'
        · exact d x hx ho sc hs

theorem candidate_some {online : List Int} {st : PStatus} {s : Int}
    (h : candidateLeader online st = some s) :
    ∃ r, Eligible online st r ∧ r.spu = s ∧
      ∀ r', Eligible online st r' →
        ((st.leader.leo - r.leo) % 65536) ≤ ((st.leader.leo - r'.leo) % 65536) := by
  unfold candidateLeader at h
  have := candidateLoop_spec online st.leader st.replicas none
  revert this
  cases hc : candidateLoop online st.leader st.replicas none with
  | none => rw [hc] at h; cases h
  | some x =>
    obtain ⟨s', b⟩ := x
    rw [hc] at h
    have hs : s' = s := by simpa using h
    subst hs
    rintro ⟨a, _, d⟩
    rcases a with a | ⟨r, h1, h2, h3, h4⟩
    · cases a
    · have h5 := score_some h4
      refine ⟨r, ⟨h1, h2, h5.1⟩, h3, fun r' ⟨k1, k2, k3⟩ => ?_⟩
      have hsc : score r' st.leader = some ((st.leader.leo - r'.leo) % 65536).toNat := by
        unfold score; simp only; rw [if_pos k3]
      have := d r' k1 k2 _ hsc
      rw [h5.2] at this
      have := Int.emod_nonneg (st.leader.leo - r.leo) (show (65536 : Int) ≠ 0 by decide)
      omega

theorem candidate_none {online : List Int} {st : PStatus} (h : candidateLeader online st = none) :
    ∀ r, ¬ Eligible online st r := by
  unfold candidateLeader at h
  have := candidateLoop_spec online st.leader st.replicas none
  revert this
  cases hc : candidateLoop online st.leader st.replicas none with
  | none => exact fun ⟨_, c⟩ r ⟨h1, h2, h3⟩ => score_none (c r h1 h2) h3
  | some x => rw [hc] at h; cases h

/-! ## Facts: carrying out the actions -/

def PAction.key : PAction → ReplicaKey
  | .updateSpec k _ => k
  | .updateStatus k _ => k

/-- actions on one partition -/
def actOn (p : Part) : PAction → Part
  | .updateSpec k s => if p.key = k then { p with spec := s } else p
  | .updateStatus k s => if p.key = k then { p with status := s } else p

theorem actOn_key (p : Part) (a : PAction) : (actOn p a).key = p.key := by
  cases a <;> simp only [actOn] <;> split <;> rfl

theorem applyAction_map (ps : List Part) (a : PAction) : applyAction ps a = ps.map fun p => actOn p a := by
  cases a <;> rfl

theorem applyActions_map (ps : List Part) (as : List PAction) :
    applyActions ps as = ps.map fun p => as.foldl actOn p := by
  unfold applyActions
  induction as generalizing ps with
  | nil => simp
  | cons a rest ih =>
    rw [List.foldl_cons, ih, applyAction_map, List.map_map]
    rfl

theorem actOn_other (p : Part) (a : PAction) (h : a.key ≠ p.key) : actOn p a = p := by
  cases a with
  | updateSpec k s => exact if_neg fun e => h e.symm
  | updateStatus k s => exact if_neg fun e => h e.symm

theorem acts_other (p : Part) (as : List PAction) (h : ∀ a ∈ as, a.key ≠ p.key) : as.foldl actOn p = p := by
  induction as with
  | nil => rfl
  | cons a rest ih =>
    rw [List.foldl_cons, actOn_other p a (h a List.mem_cons_self)]
    exact ih fun x hx => h x (List.mem_cons_of_mem _ hx)

/-- of actions made per partition, only its own matter to a partition -/
theorem acts_own (f : Part → List PAction) (hf : ∀ p, ∀ a ∈ f p, a.key = p.key) (ps : List Part)
    (hn : (ps.map (·.key)).Nodup) (p : Part) (hp : p ∈ ps) (q : Part) (hq : q.key = p.key) :
    (ps.flatMap f).foldl actOn q = (f p).foldl actOn q := by
  induction ps with
  | nil => cases hp
  | cons x rest ih =>
    rw [List.map_cons, List.nodup_cons] at hn
    rw [List.flatMap_cons, List.foldl_append]
    have keyed : ∀ (as : List PAction) (q : Part), (as.foldl actOn q).key = q.key := by
      intro as
      induction as with
      | nil => exact fun _ => rfl
      | cons a r ih2 => intro q; rw [List.foldl_cons, ih2, actOn_key]
    rcases List.mem_cons.1 hp with rfl | hp
    · apply acts_other
      intro a ha
      obtain ⟨y, hy, hay⟩ := List.mem_flatMap.1 ha
      rw [hf y a hay, keyed, hq]
      exact fun e => hn.1 (e ▸ List.mem_map.2 ⟨y, hy, rfl⟩)
    · rw [acts_other q (f x)]
      · exact ih hn.2 hp
      · intro a ha
        rw [hf x a ha, hq]
        exact fun e => hn.1 (e ▸ List.mem_map.2 ⟨p, hp, rfl⟩)

theorem offActions_key (online : List Int) (off : Int) (p : Part) :
    ∀ a ∈ offActions online off p, a.key = p.key := by
  intro a ha
  unfold offActions at ha
  split at ha
  · split at ha
    · rw [List.mem_singleton.1 ha]; rfl
    · split at ha
      · rw [List.mem_singleton.1 ha]; rfl
      · cases ha
  · cases ha

theorem onActions_key (on : Int) (p : Part) : ∀ a ∈ onActions on p, a.key = p.key := by
  intro a ha
  unfold onActions at ha
  split at ha
  · cases ha
  · split at ha
    · obtain ⟨_, _, e⟩ := List.mem_map.1 ha
      rw [← e]; rfl
    · rw [List.mem_singleton.1 ha]; rfl

/-! ## Facts: reports -/

theorem merge_spu (x r : RStatus) (h : x.spu = r.spu) : (x.merge r).1.spu = r.spu := by
  unfold RStatus.merge
  split
  · exact h
  · split <;> rfl

theorem mergeReplica_spus (l : List RStatus) (r : RStatus) :
    (mergeReplica l r).map (·.spu) = if r.spu ∈ l.map (·.spu) then l.map (·.spu) else l.map (·.spu) ++ [r.spu] := by
  induction l with
  | nil => simp [mergeReplica]
  | cons x rest ih =>
    unfold mergeReplica
    split
    · rename_i h
      simp [merge_spu x r h, h]
    · rename_i h
      rw [List.map_cons, ih]
      have h' : ¬ r.spu = x.spu := fun e => h e.symm
      by_cases hm : r.spu ∈ rest.map (·.spu)
      · have hm2 : r.spu ∈ (x :: rest).map (·.spu) := List.mem_cons_of_mem _ hm
        rw [if_pos hm, if_pos hm2]; rfl
      · have hm2 : r.spu ∉ (x :: rest).map (·.spu) := by
          rw [List.map_cons, List.mem_cons]; exact fun c => c.elim h' hm
        rw [if_neg hm, if_neg hm2]; rfl

theorem foldl_mergeReplica (l : List RStatus) (acc : List RStatus) (hn : (acc.map (·.spu)).Nodup) :
    ((l.foldl mergeReplica acc).map (·.spu)).Nodup ∧
    ∀ s ∈ (l.foldl mergeReplica acc).map (·.spu), s ∈ acc.map (·.spu) ∨ s ∈ l.map (·.spu) := by
  induction l generalizing acc with
  | nil => exact ⟨hn, fun s hs => .inl hs⟩
  | cons r rest ih =>
    rw [List.foldl_cons]
    have hm := mergeReplica_spus acc r
    have hn' : ((mergeReplica acc r).map (·.spu)).Nodup := by
      rw [hm]
      split
      · exact hn
      · rename_i hnot
        rw [List.nodup_append]
        refine ⟨hn, by simp, ?_⟩
        intro a ha b hb e
        rw [List.mem_singleton.1 hb] at e
        exact hnot (e ▸ ha)
    have ⟨a, b⟩ := ih _ hn'
    refine ⟨a, fun s hs => ?_⟩
    rcases b s hs with h | h
    · rw [hm] at h
      split at h
      · exact .inl h
      · rcases List.mem_append.1 h with h | h
        · exact .inl h
        · right; rw [List.mem_singleton.1 h]; exact List.mem_cons_self
    · exact .inr (List.mem_cons_of_mem _ h)

/-- no SPU occurs twice in a status, as leader or replica -/
def PStatus.Proper (st : PStatus) : Prop :=
  (st.replicas.map (·.spu)).Nodup ∧ st.leader.spu ∉ st.replicas.map (·.spu)

/-- all SPUs of a status belong to `R` (or are unknown) -/
def PStatus.Within (st : PStatus) (R : List Int) : Prop :=
  (st.leader.spu ∈ R ∨ st.leader.spu = -1) ∧ ∀ r ∈ st.replicas, r.spu ∈ R ∨ r.spu = -1

theorem proper_merge {self other : PStatus} (h : self.Proper) : (self.merge other).Proper := by
  unfold PStatus.merge PStatus.Proper
  dsimp only
  have hb : ((match (self.leader.merge other.leader).2 with
      | some old => self.replicas ++ [old]
      | none => self.replicas : List RStatus).map (·.spu)).Nodup := by
    by_cases h1 : other.leader.spu = -1
    · simp only [RStatus.merge, if_pos h1]; exact h.1
    · by_cases h2 : self.leader.spu = -1 ∨ self.leader.spu = other.leader.spu
      · simp only [RStatus.merge, if_neg h1, if_pos h2]; exact h.1
      · simp only [RStatus.merge, if_neg h1, if_neg h2]
        rw [List.map_append, List.nodup_append]
        refine ⟨h.1, by simp, ?_⟩
        intro a ha b hb e
        rw [List.map_cons, List.map_nil, List.mem_singleton] at hb
        exact h.2 (hb ▸ e ▸ ha)
  have hf := (foldl_mergeReplica other.replicas _ hb).1
  constructor
  · exact hf.sublist ((List.filter_sublist).map _)
  · intro hm
    obtain ⟨r, hr, e⟩ := List.mem_map.1 hm
    have := (List.mem_filter.1 hr).2
    simp at this
    exact this e

theorem within_merge {self other : PStatus} {R : List Int} (hp : self.Proper) (h : self.Within R)
    (ho : other.Within R) : (self.merge other).Within R := by
  unfold PStatus.merge PStatus.Within
  dsimp only
  have hb : ((match (self.leader.merge other.leader).2 with
      | some old => self.replicas ++ [old]
      | none => self.replicas : List RStatus).map (·.spu)).Nodup ∧
      ∀ r ∈ (match (self.leader.merge other.leader).2 with
      | some old => self.replicas ++ [old]
      | none => self.replicas), r.spu ∈ R ∨ r.spu = -1 := by
    by_cases h1 : other.leader.spu = -1
    · simp only [RStatus.merge, if_pos h1]; exact ⟨hp.1, h.2⟩
    · by_cases h2 : self.leader.spu = -1 ∨ self.leader.spu = other.leader.spu
      · simp only [RStatus.merge, if_neg h1, if_pos h2]; exact ⟨hp.1, h.2⟩
      · simp only [RStatus.merge, if_neg h1, if_neg h2]
        refine ⟨?_, fun r hr => ?_⟩
        · rw [List.map_append, List.nodup_append]
          refine ⟨hp.1, by simp, ?_⟩
          intro a ha b hb e
          rw [List.map_cons, List.map_nil, List.mem_singleton] at hb
          exact hp.2 (hb ▸ e ▸ ha)
        · rcases List.mem_append.1 hr with hr | hr
          · exact h.2 r hr
          · rw [List.mem_singleton.1 hr]; exact h.1
  have hf := (foldl_mergeReplica other.replicas _ hb.1).2
  constructor
  · unfold RStatus.merge
    split
    · exact h.1
    · split <;> exact ho.1
  · intro r hr
    have hr' := (List.mem_filter.1 hr).1
    rcases hf r.spu (List.mem_map.2 ⟨r, hr', rfl⟩) with hm | hm
    · obtain ⟨x, hx, e⟩ := List.mem_map.1 hm
      rw [← e]; exact hb.2 x hx
    · obtain ⟨x, hx, e⟩ := List.mem_map.1 hm
      rw [← e]; exact ho.2 x hx

end Verif.Sc
