import Verif.Mirror.TopicsSafe
/-!
# C76, C77: topics of a remote cluster follow its home cluster
-/

namespace Verif.Props
open Verif.Mirror.Topics

/-- **C76 (partial).** A remote cluster's mirrored topics follow the home cluster.  Let the controller of the remote
cluster take a message that lists the topics of home cluster `h`, and do everything it asks for without
interruption.  Whatever was in the store before:

* every topic the home cluster mirrors to this remote cluster (with a registered leader) is there, as a mirror of
  this home cluster, pointing at the broker that leads the partition and with the right direction;
* there is no other topic mirrored from this home cluster;
* any topic the home cluster does not mirror here, and that is not a mirror of it, is as before.

What is missing for the full claim is shown by the theorems `C76_violated_…`: changed settings of a topic do not
follow, a topic whose leader is (for a moment) unknown is deleted, and a topic of the remote cluster's own with the
same name is taken over. -/
theorem C76_follows_partial (s : World) (c : Conn) (h : HomeState) (rest : List (List Wrapper))
    (wf : h.WF) (hc : s.conn = some c) (hw : c.work = []) (ha : s.acts = [])
    (hi : c.inbox = snapshot h c.home.remoteId :: rest) (hnd : (s.topics.map (·.1)).Nodup) :
    ∃ n₀, ∀ n ≥ n₀, ∀ k : String,
      (∀ spec spu source, MirroredAt h c.home.remoteId k spec spu source →
        ∃ t, get (run s (.recv :: settle n)).topics k = some t ∧
          t.replicas = .remote c.home.id [spu] source) ∧
      (∀ t spus target, get (run s (.recv :: settle n)).topics k = some t →
        t.replicas = .remote c.home.id spus target → Offered h c.home.remoteId k) ∧
      (¬ Offered h c.home.remoteId k →
        (∀ t spus target, get s.topics k = some t → t.replicas ≠ .remote c.home.id spus target) →
        get (run s (.recv :: settle n)).topics k = get s.topics k) := by
  refine ⟨s.topics.length + (snapshot h c.home.remoteId).length, fun n hn k => ?_⟩
  have hr := round_topics s c _ rest hc ha hw hi (fun w hw => snapshot_home hw) n hn
  rw [hr]
  have hnot : k ∉ (snapshot h c.home.remoteId).map (·.key) →
      ∀ w ∈ snapshot h c.home.remoteId, w.key ≠ k :=
    fun hk w hw he => hk (List.mem_map.mpr ⟨w, hw, he⟩)
  refine ⟨?_, ?_, ?_⟩
  · intro spec spu source hm
    have hmem := snapshot_complete wf hm
    have := fold_sync_mem c.home.id _ (((toDelete c.home.id s.topics ((snapshot h c.home.remoteId).map (·.key))).map
      Task.del).foldl (doTask c.home.id) s.topics) (snapshot_nodup wf.topics c.home.remoteId) _ hmem
    dsimp only at this
    rw [this]
    obtain ⟨topic, parts, i, fs, _, rfl, hrep, _⟩ := hm
    obtain ⟨t, ht, htr⟩ := synced_replicas (hid := c.home.id)
      (cur := get (((toDelete c.home.id s.topics ((snapshot h c.home.remoteId).map (·.key))).map
        Task.del).foldl (doTask c.home.id) s.topics) k)
      (w := ⟨k, topic.spec, spu.id, spu.key, spu.endpoint⟩) hrep
    exact ⟨t, ht, htr⟩
  · intro t spus target ht htr
    by_cases hk : k ∈ (snapshot h c.home.remoteId).map (·.key)
    · exact mem_offered hk
    · exfalso
      rw [fold_sync_other _ _ _ _ (hnot hk), fold_del] at ht
      split at ht
      · cases ht
      · next hd => exact hd (toDelete_mem hk (mem_of_get ht) (by simp [mirrors, htr]))
  · intro hno hloc
    have hk : k ∉ (snapshot h c.home.remoteId).map (·.key) := fun hk => hno (mem_offered hk)
    rw [fold_sync_other _ _ _ _ (hnot hk), fold_del, if_neg]
    intro hd
    obtain ⟨_, t, htm, hm⟩ := mem_toDelete hd
    have := get_of_mem hnd htm
    unfold mirrors at hm
    split at hm
    · next hid l b heq =>
      have hm : hid = c.home.id := by simpa using hm
      subst hm
      exact hloc t l b this heq
    · cases hm

/-- **C76 (partial).** The settings of a mirrored topic.  A topic that is new at the remote cluster gets all the
settings of the home topic.  For a topic that was there, and whose leader or direction changed, compression and
deduplication become those of the home topic, and so do the clean-up policy and the storage configuration if the
home topic has them. -/
theorem C76_settings_partial (s : World) (c : Conn) (h : HomeState) (rest : List (List Wrapper))
    (wf : h.WF) (hc : s.conn = some c) (hw : c.work = []) (ha : s.acts = [])
    (hi : c.inbox = snapshot h c.home.remoteId :: rest) :
    ∃ n₀, ∀ n ≥ n₀, ∀ (k : String) (spec : TopicSpec) (spu : SpuRef) (source : Bool),
      MirroredAt h c.home.remoteId k spec spu source →
      (∀ old, get s.topics k = some old → old.replicas ≠ .remote c.home.id [spu] source) →
      ∃ t, get (run s (.recv :: settle n)).topics k = some t ∧
        t.compression = spec.compression ∧ t.dedup = spec.dedup ∧
        (spec.cleanup.isSome → t.cleanup = spec.cleanup) ∧ (spec.storage.isSome → t.storage = spec.storage) ∧
        (get s.topics k = none → t.cleanup = spec.cleanup ∧ t.storage = spec.storage ∧ t.system = spec.system) ∧
        (∀ old, get s.topics k = some old → t.system = old.system ∧
          (spec.cleanup = none → t.cleanup = old.cleanup) ∧ (spec.storage = none → t.storage = old.storage)) := by
  refine ⟨s.topics.length + (snapshot h c.home.remoteId).length, fun n hn k spec spu source hm hold => ?_⟩
  have hr := round_topics s c _ rest hc ha hw hi (fun w hw => snapshot_home hw) n hn
  rw [hr]
  have hmem := snapshot_complete wf hm
  have := fold_sync_mem c.home.id _ (((toDelete c.home.id s.topics ((snapshot h c.home.remoteId).map (·.key))).map
      Task.del).foldl (doTask c.home.id) s.topics) (snapshot_nodup wf.topics c.home.remoteId) _ hmem
  dsimp only at this
  rw [this, fold_del, if_neg (fun hd => (mem_toDelete hd).1 (List.mem_map.mpr ⟨_, hmem, rfl⟩))]
  obtain ⟨topic, parts, i, fs, _, rfl, hrep, _⟩ := hm
  cases hk : get s.topics k with
  | none =>
    rw [synced_new (w := ⟨k, topic.spec, spu.id, spu.key, spu.endpoint⟩) hrep]
    exact ⟨_, rfl, rfl, rfl, fun _ => rfl, fun _ => rfl, fun _ => ⟨rfl, rfl, rfl⟩, nofun⟩
  | some old =>
    rw [synced_changed (w := ⟨k, topic.spec, spu.id, spu.key, spu.endpoint⟩) hrep (hold old hk)]
    refine ⟨_, rfl, rfl, rfl, ?_, ?_, nofun, ?_⟩
    · intro hs
      show (topic.spec.cleanup <|> old.cleanup) = _
      cases hh : topic.spec.cleanup with
      | none => rw [hh] at hs; cases hs
      | some v => rfl
    · intro hs
      show (topic.spec.storage <|> old.storage) = _
      cases hh : topic.spec.storage with
      | none => rw [hh] at hs; cases hs
      | some v => rfl
    · intro o ho
      cases ho
      refine ⟨rfl, ?_, ?_⟩
      · intro hn
        show (topic.spec.cleanup <|> old.cleanup) = _
        rw [hn]; rfl
      · intro hn
        show (topic.spec.storage <|> old.storage) = _
        rw [hn]; rfl

/-- **C76 (partial).** A mirrored topic is not deleted while the home cluster has it.  Take any run: connections
come and go, messages are under way, actions of the store are carried out late, home clusters change, and people
change other topics.  If the topic `k` is a mirror of home cluster `hid` at the start, and throughout the run every
connection to `hid` finds there the topic with a registered leader and no other home cluster offers a topic of that
name, then the topic is a mirror of `hid` at the end. -/
theorem C76_kept_partial (hid k : String) (s : World) (es : List Ev) (hnd : (s.topics.map (·.1)).Nodup)
    (hfresh : s.conn = none ∧ s.acts = [])
    (hhere : ∃ t spus target, get s.topics k = some t ∧ t.replicas = .remote hid spus target)
    (hoffer : ∀ n, ∀ c, (run s (es.take n)).conn = some c →
      ((run s (es.take n)).homes c.home.endpoint).WF ∧
      (c.home.id = hid ↔ Offered ((run s (es.take n)).homes c.home.endpoint) c.home.remoteId k))
    (hadmin : ∀ a, .admin a ∈ es → a ≠ .del k ∧ ∀ t, a = .put k t → mirrors hid t = true) :
    ∃ t spus target, get (run s es).topics k = some t ∧ t.replicas = .remote hid spus target := by
  have key : Keeps hid k (run s es) ∧ ((run s es).topics.map (·.1)).Nodup := by
    refine run_ind (P := fun s => Keeps hid k s ∧ (s.topics.map (·.1)).Nodup) s es ?_ ?_
    · obtain ⟨t, l, b, ht, hr⟩ := hhere
      refine ⟨⟨⟨t, ht, by simp [mirrors, hr]⟩, ?_, ?_, ?_⟩, hnd⟩
      · rw [hfresh.2]; nofun
      · rw [hfresh.1]; nofun
      · rw [hfresh.1]; nofun
    · rintro n e he ⟨hk, hn⟩
      refine ⟨hk.step (hoffer n) hn e ?_, step_nodup hn e⟩
      intro a ha
      subst ha
      have := hadmin a (List.mem_of_getElem? he)
      cases a with
      | del x => exact fun hx => this.1 (by rw [hx])
      | put x t => exact fun hx => this.2 t (by rw [hx])
  obtain ⟨t, ht, hm⟩ := key.1.here
  unfold mirrors at hm
  split at hm
  · next h l b heq =>
    have hm : h = hid := by simpa using hm
    exact ⟨t, l, b, ht, by rw [heq, hm]⟩
  · cases hm

/-- The topics as they would be if only people had changed them. -/
def onlyAdmins (m : List (String × TopicSpec)) : List Ev → List (String × TopicSpec)
  | [] => m
  | .admin a :: es => onlyAdmins (a.apply m) es
  | _ :: es => onlyAdmins m es

/-- **C76 (partial).** The remote cluster's own topics are left alone: in any run, a topic name that no connected
home cluster offers, and under which people at the remote cluster keep only topics that are not mirrors, always
holds what they put there. -/
theorem C76_own_untouched_partial (k : String) (s : World) (es : List Ev) (hnd : (s.topics.map (·.1)).Nodup)
    (hfresh : s.conn = none ∧ s.acts = [])
    (hown : ∀ t, get s.topics k = some t → ∀ h l b, t.replicas ≠ .remote h l b)
    (hoffer : ∀ n, ∀ c, (run s (es.take n)).conn = some c →
      ¬ Offered ((run s (es.take n)).homes c.home.endpoint) c.home.remoteId k)
    (hadmin : ∀ t, .admin (.put k t) ∈ es → ∀ h l b, t.replicas ≠ .remote h l b) :
    get (run s es).topics k = get (onlyAdmins s.topics es) k := by
  have h0 : Alone k s := by
    refine ⟨hown, ?_, ?_, ?_⟩
    · rw [hfresh.2]; nofun
    · rw [hfresh.1]; nofun
    · rw [hfresh.1]; nofun
  clear hfresh hown
  suffices ∀ m, get s.topics k = get m k → get (run s es).topics k = get (onlyAdmins m es) k from this _ rfl
  induction es generalizing s with
  | nil => intro m hm; exact hm
  | cons e es ih =>
    intro m hm
    have hst := h0.step (hoffer 0) hnd e (fun t ht => hadmin t (by rw [ht]; exact List.mem_cons_self ..))
    have := ih (step s e) (step_nodup hnd e) (fun n => hoffer (n + 1))
      (fun t ht => hadmin t (List.mem_cons_of_mem _ ht)) hst.1
    by_cases he : ∃ a, e = .admin a
    · obtain ⟨a, rfl⟩ := he
      exact this (a.apply m) (apply_congr hm a)
    · have hne : ∀ a, e ≠ .admin a := fun a ha => he ⟨a, ha⟩
      have h1 : onlyAdmins m (e :: es) = onlyAdmins m es := by
        cases e <;> first | rfl | exact absurd rfl (hne _)
      rw [h1]
      exact this m ((hst.2 hne).trans hm)

/-! ### Examples and counterexamples -/

namespace MirrorTopicsExample

def edge : Home := ⟨"hq", "boat1", "hq:9003"⟩
def spec (c : Option Nat) : TopicSpec := { replicas := .home [⟨"boat0"⟩, ⟨"boat1"⟩] true, cleanup := c }
def hq (c : Option Nat) (spus : List Spu) : HomeState :=
  ⟨[("fish", ⟨spec c, [(0, [5001]), (1, [5002])]⟩)], spus, ["boat0", "boat1"], fun _ => some true⟩
def spus : List Spu := [⟨"main-0", 5001, "a:9010"⟩, ⟨"main-1", 5002, "b:9010"⟩]
def start (topics : List (String × TopicSpec)) (h : HomeState) : World :=
  ⟨fun _ => h, [("hq", edge)], topics, none, []⟩
/-- One round from the start. -/
def round : List Ev := [.connect "hq", .send, .recv] ++ settle 3
def mirror (c : Option Nat) : TopicSpec :=
  { replicas := .remote "hq" [⟨5002, "main-1", "b:9010"⟩] true, cleanup := c }

theorem hq_wf (c : Option Nat) : (hq c spus).WF := by
  refine ⟨by simp [hq], by simp [hq, spus], ?_⟩
  intro e he
  have := List.mem_singleton.mp he
  subst this
  simp

theorem hq_mirrored (c : Option Nat) :
    MirroredAt (hq c spus) "boat1" "fish" (spec c) ⟨5002, "main-1", "b:9010"⟩ true :=
  ⟨_, _, 1, [], List.mem_singleton.mpr rfl, rfl, rfl, rfl,
    (by intro j hj; have : j = 0 := by omega
        subst this; decide),
    (by simp), (by simp [hq, spus])⟩

/-- The hypotheses of `C76_follows_partial` and `C76_settings_partial` are met after connecting and sending. -/
example : ∃ c rest, (run (start [("own", { replicas := .other 1 }), ("old", mirror none)] (hq none spus))
      [.connect "hq", .send]).conn = some c ∧ c.work = [] ∧
      c.inbox = snapshot (hq none spus) c.home.remoteId :: rest ∧ (hq none spus).WF ∧
      MirroredAt (hq none spus) c.home.remoteId "fish" (spec none) ⟨5002, "main-1", "b:9010"⟩ true :=
  ⟨_, _, rfl, rfl, rfl, hq_wf _, hq_mirrored _⟩

/-- … and the round does what is claimed: the new topic appears, the one no longer mirrored goes, the own one stays. -/
example : (run (start [("own", { replicas := .other 1 }), ("old", mirror none)] (hq none spus)) round).topics =
    [("fish", mirror none), ("own", { replicas := .other 1 })] := by decide

/-- A run for `C76_kept_partial` and `C76_own_untouched_partial`: the topic stays while connections fail. -/
example : (run (start [("fish", mirror none), ("own", { replicas := .other 1 })] (hq none spus))
    (round ++ [.fail, .connect "hq", .send, .admin (.put "own" { replicas := .other 2 }), .recv, .issue])).topics =
    [("own", { replicas := .other 2 }), ("fish", mirror none)] := by decide

end MirrorTopicsExample

open MirrorTopicsExample in
/-- **Violation.** Settings do not follow: the retention of the topic is changed at the home cluster (from 100 to 50
seconds), every message since says so, and the remote cluster keeps the old one, since the topic counts as up to date
once leader and direction agree (controller.rs:242-249). -/
theorem C76_violated_settings (n : Nat) :
    get (run (start [] (hq (some 100) spus))
        (round ++ [.homeChange "hq:9003" (hq (some 50) spus)] ++
          (List.replicate n ([.send, .recv] ++ settle 1)).flatten)).topics "fish" = some (mirror (some 100)) ∧
      MirroredAt (hq (some 50) spus) "boat1" "fish" (spec (some 50)) ⟨5002, "main-1", "b:9010"⟩ true := by
  refine ⟨?_, hq_mirrored _⟩
  suffices H : ∀ s : World, s.homes "hq:9003" = hq (some 50) spus → s.topics = [("fish", mirror (some 100))] →
      s.conn = some ⟨edge, [], []⟩ → s.acts = [] →
      get (run s (List.replicate n ([.send, .recv] ++ settle 1)).flatten).topics "fish" = some (mirror (some 100)) by
    rw [run_append]
    exact H _ rfl rfl rfl rfl
  induction n with
  | zero => intro s _ ht _ _; show get s.topics _ = _; rw [ht]; rfl
  | succ n ih =>
    intro s hh ht hc ha
    rw [List.replicate_succ, List.flatten_cons, run_append]
    have h1 : run s ([.send, .recv] ++ settle 1) = { s with conn := some ⟨edge, [], []⟩ } := by
      cases s with
      | mk homes mir topics conn acts =>
        simp only at hh ht hc ha
        subst ht hc ha
        show run _ [.send, .recv, .issue, .carry] = _
        have hs : step ⟨homes, mir, [("fish", mirror (some 100))], some ⟨edge, [], []⟩, []⟩ .send =
            ⟨homes, mir, [("fish", mirror (some 100))],
              some ⟨edge, [snapshot (hq (some 50) spus) "boat1"], []⟩, []⟩ := by
          simp only [step, edge, hh]
          rfl
        rw [run, hs]
        rfl
    rw [h1]
    exact ih _ hh ht rfl ha

open MirrorTopicsExample in
/-- **Violation.** A topic is deleted at the remote cluster, with its records, although the home cluster still has
it: the broker leading its partition was not registered at the moment of the message — for instance because the
home controller has just started and has not read its brokers yet (connect.rs:199-211). -/
theorem C76_violated_leader_unknown :
    get (run (start [("fish", mirror none)] (hq none [])) round).topics "fish" = none ∧
      get (hq none []).topics "fish" = get (hq none spus).topics "fish" := by decide

open MirrorTopicsExample in
/-- **Violation.** A topic of the remote cluster's own is taken over when the home cluster mirrors one of the same
name (controller.rs:239-251), and then deleted when the home cluster stops doing so. -/
theorem C76_violated_takes_over :
    get (run (start [("fish", { replicas := .other 3 })] (hq none spus)) round).topics "fish" = some (mirror none) ∧
      get (run (start [("fish", { replicas := .other 3 })] (hq none spus))
        (round ++ [.homeChange "hq:9003" ⟨[], spus, ["boat1"], fun _ => some true⟩, .send, .recv] ++ settle 1)).topics
        "fish" = none := by decide

/-! ## C77 -/

/-- **C77.** A home cluster tells a remote cluster only about topics with a partition for that remote cluster: each
topic of a message is a topic of the home cluster, mirrored to just that remote cluster. -/
theorem C77_only_own_topics (h : HomeState) (rid : String) (w : Wrapper) (hw : w ∈ snapshot h rid) :
    ∃ topic parts source, (w.key, topic) ∈ h.topics ∧ topic.spec = w.spec ∧
      topic.spec.replicas = .home parts source ∧ ⟨rid⟩ ∈ parts := by
  obtain ⟨src, topic, parts, i, fs, hmem, hs, hrep, hi, _⟩ := snapshot_sound hw
  exact ⟨topic, parts, src, hmem, hs, by rw [hs]; exact hrep, List.mem_of_getElem? hi⟩

/-- Every message under way was sent while the remote cluster was registered. -/
theorem C77_conn_admitted (s : World) (n : String) (c : Conn) (hc : s.conn = none)
    (h : (step s (.connect n)).conn = some c) :
    c.home.remoteId ∈ (s.homes c.home.endpoint).remotes ∧
      (s.homes c.home.endpoint).auth c.home.remoteId ≠ some false := by
  simp only [step, hc] at h
  split at h
  · next h1 h2 =>
    split at h
    · next ha =>
      cases h
      unfold admits at ha
      simp only [Bool.and_eq_true, bne_iff_ne, ne_eq] at ha
      exact ⟨by simpa using ha.1, ha.2⟩
    · rw [hc] at h; cases h
  · rw [hc] at h; cases h

/-- **C77 (partial).** Only registered remote clusters get messages, and only those the authorization did not
refuse when they connected: in any run from a state without a connection, whenever a message is added to a
connection, the remote cluster is registered at that moment, and at the moment the connection was made it was
registered and not refused.  Missing: an authorization that fails counts as permission
(`C77_violated_auth_failure`). -/
theorem C77_only_admitted_partial (s : World) (es : List Ev) (h0 : s.conn = none) (c : Conn)
    (hc : (run s es).conn = some c) :
    (∃ n, n < es.length ∧ c.home.remoteId ∈ ((run s (es.take n)).homes c.home.endpoint).remotes ∧
      ((run s (es.take n)).homes c.home.endpoint).auth c.home.remoteId ≠ some false) ∧
    (∀ c', (step (run s es) .send).conn = some c' →
      c.home.remoteId ∈ ((run s es).homes c.home.endpoint).remotes) := by
  constructor
  · have key : ∀ m ≤ es.length, ∀ c, (run s (es.take m)).conn = some c →
        ∃ n, n < m ∧ c.home.remoteId ∈ ((run s (es.take n)).homes c.home.endpoint).remotes ∧
          ((run s (es.take n)).homes c.home.endpoint).auth c.home.remoteId ≠ some false := by
      clear hc c
      intro m
      induction m with
      | zero => intro _ c hc; rw [show run s (es.take 0) = s from rfl, h0] at hc; cases hc
      | succ m ih =>
        intro hm c hc
        rw [List.take_succ_eq_append_getElem (by omega), run_append] at hc
        have hc : (step (run s (es.take m)) es[m]).conn = some c := hc
        by_cases hold : ∃ c₀, (run s (es.take m)).conn = some c₀ ∧ c₀.home = c.home
        · obtain ⟨c₀, h1, h2⟩ := hold
          obtain ⟨n, hn, hh⟩ := ih (by omega) c₀ h1
          refine ⟨n, by omega, ?_⟩
          rw [← h2]
          exact hh
        · generalize es[m] = e at hc
          cases hcon : (run s (es.take m)).conn with
          | none =>
            cases e with
            | connect nm => exact ⟨m, by omega, C77_conn_admitted _ nm c hcon hc⟩
            | _ =>
              exfalso
              simp only [step, hcon] at hc
              (repeat' split at hc) <;> simp_all
          | some c₀ =>
            exfalso
            refine hold ⟨c₀, hcon, ?_⟩
            cases e <;> simp only [step, hcon] at hc <;> (repeat' split at hc) <;>
              first
              | (rw [hcon] at hc; cases hc; rfl)
              | (cases hc; rfl)
              | (cases hc; done)
    have key := key es.length (Nat.le_refl _) c
    rw [List.take_length] at key
    exact key hc
  · intro c' hs
    simp only [step, hc] at hs
    split at hs
    · next h => simpa using h
    · cases hs

open MirrorTopicsExample in
example : ∃ c, (run (start [] (hq none spus)) [.connect "hq", .send]).conn = some c ∧ c.home.remoteId = "boat1" :=
  ⟨_, rfl, rfl⟩

open MirrorTopicsExample in
example : (snapshot (hq none spus) "boat1").map (·.key) = ["fish"] ∧ snapshot (hq none spus) "boat2" = [] := by decide

open MirrorTopicsExample in
/-- A remote cluster that is refused gets no connection. -/
example : (run (start [] { hq none spus with auth := fun _ => some false }) [.connect "hq"]).conn.isNone := by decide

open MirrorTopicsExample in
/-- **Violation.** A remote cluster is served although the authorization check failed: `if let Ok(authorized) = … &&
!authorized` refuses only on a negative answer (connect.rs:64-83); everywhere else a failed check is an error. -/
theorem C77_violated_auth_failure :
    ∃ c, (run (start [] { hq none spus with auth := fun _ => none }) [.connect "hq", .send]).conn = some c ∧
      c.inbox.flatten.map (·.key) = ["fish"] := ⟨_, rfl, rfl⟩

end Verif.Props
