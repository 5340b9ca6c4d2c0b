import Verif.Meta.Converge
import Verif.Meta.Listener

/-!
# C35–C37: metadata stores

`View`, `View.act` and `Agree` (`Verif.Meta.View`) are the specification: what a subscriber knows, how
updates and deletions change it, and equality in the components selected by a filter.
`Store.content` is the view of everything in a store.
-/

namespace Verif.Props
open Verif.Meta

section
variable {K Sp St Me : Type} [DecidableEq K] [DecidableEq Sp] [DecidableEq St] [DecidableEq Me]

/-! ## C35 -/

/-- For any history of a store (`ops₁` up to the moment the subscriber knows everything, `ops₂` after),
any filter that selects something and any epoch `e` up to the subscriber's: a full report, in any order,
is the whole content; and an incremental report makes the subscriber's view equal to the content in the
selected components, provided deletions are applied before updates (otherwise each in any order). -/
theorem C35_deletes_first (newer : Me → Me → Bool) (ops₁ ops₂ : List (Op K Sp St Me)) (f : Flag)
    (hf : f.spec = true ∨ f.status = true ∨ f.item = true) (e : Int) :
    let s := (Store.init : Store K Sp St Me).run newer ops₁
    let t := s.run newer ops₂
    e ≤ s.epoch →
    match t.changesSince f e with
    | .all l => ∀ l' : List (Obj K Sp St Me), l'.Perm l → View.empty.acts (l'.map fun o => .put o.key o) = t.content
    | .changes u d => ∀ u' d' : List (Obj K Sp St Me), u'.Perm u → d'.Perm d →
        Agree f (s.content.acts (d'.map (fun o => .del o.key) ++ u'.map fun o => .put o.key o)) t.content := by
  intro s t he
  have hs := (run_ok (newer := newer) ops₁ WF.init (Since.refl WF.init)).1
  obtain ⟨ht, hst⟩ := run_ok (newer := newer) ops₂ hs (Since.refl hs)
  have hf' : f.isNone = false := by
    unfold Flag.isNone
    rcases hf with h | h | h <;> simp [h]
  split
  · rename_i l hl
    intro l' hp
    rw [(changesSince_all hl).2] at hp
    exact all_ok ht hp
  · rename_i u d hd
    intro u' d' hu hd'
    exact delta_deletes_first ht hst hf' he (changesSince_changes ht hd) hu hd'

/-- With the full filter the subscriber's view is exactly the content. -/
theorem C35_deletes_first_full (newer : Me → Me → Bool) (ops₁ ops₂ : List (Op K Sp St Me)) :
    let s := (Store.init : Store K Sp St Me).run newer ops₁
    let t := s.run newer ops₂
    match t.changesSince Flag.full s.epoch with
    | .all l => View.empty.acts (l.map fun o => .put o.key o) = t.content
    | .changes u d =>
        s.content.acts (d.map (fun o => .del o.key) ++ u.map fun o => .put o.key o) = t.content := by
  intro s t
  have h := C35_deletes_first newer ops₁ ops₂ Flag.full (Or.inl rfl) s.epoch (Int.le_refl _)
  change match t.changesSince Flag.full s.epoch with
    | .all l => ∀ l' : List (Obj K Sp St Me), l'.Perm l → View.empty.acts (puts l') = t.content
    | .changes u d => ∀ u' d' : List (Obj K Sp St Me), u'.Perm u → d'.Perm d →
        Agree Flag.full (s.content.acts (dels d' ++ puts u')) t.content at h
  generalize t.changesSince Flag.full s.epoch = x at h
  cases x with
  | all l => exact h l (List.Perm.refl _)
  | changes u d => exact agree_full (h u d (List.Perm.refl _) (List.Perm.refl _))

/-- Any order of all messages.

Missing: the hypothesis that no key is reported both as updated and as deleted, i.e. that no object has
been deleted and created again since `e`; see `C35_violated_recreate`. -/
theorem C35_any_order_partial (newer : Me → Me → Bool) (ops₁ ops₂ : List (Op K Sp St Me)) (f : Flag)
    (hf : f.spec = true ∨ f.status = true ∨ f.item = true) (e : Int) :
    let s := (Store.init : Store K Sp St Me).run newer ops₁
    let t := s.run newer ops₂
    e ≤ s.epoch → ∀ u d, t.changesSince f e = .changes u d → (∀ o ∈ u, ∀ p ∈ d, o.key ≠ p.key) →
    ∀ l, l.Perm (u.map (fun o => Upd.put o.key o) ++ d.map fun o => .del o.key) →
      Agree f (s.content.acts l) t.content := by
  intro s t he u d hd hdis l hl
  have hs := (run_ok (newer := newer) ops₁ WF.init (Since.refl WF.init)).1
  obtain ⟨ht, hst⟩ := run_ok (newer := newer) ops₂ hs (Since.refl hs)
  have hf' : f.isNone = false := by
    unfold Flag.isNone
    rcases hf with h | h | h <;> simp [h]
  exact delta_const ht hst hf' he (changesSince_changes ht hd) hdis hl

end

abbrev NatObj := Obj Nat Nat Nat Nat

def revNewer : Nat → Nat → Bool := fun a b => decide (b < a)

def topicA (spec rev : Nat) : NatObj := ⟨1, spec, 0, rev⟩
def topicB (spec rev : Nat) : NatObj := ⟨2, spec, 0, rev⟩

/-- an incremental report with an update, a deletion and a new key -/
example :
    let s := Store.init.run revNewer [.sync [topicA 5 0, topicB 6 0]]
    let t := s.run revNewer [.apply [.del 1], .apply [.mod (topicB 7 1)], .apply [.mod ⟨3, 8, 0, 0⟩]]
    t.changesSince Flag.full s.epoch = .changes [topicB 7 1, ⟨3, 8, 0, 0⟩] [topicA 5 0] := by
  decide

/-- an outdated update is ignored and reported to nobody -/
example :
    let s := Store.init.run revNewer [.sync [topicA 5 3]]
    let t := s.run revNewer [.apply [.mod (topicA 4 2)]]
    t = s ∧ t.changesSince Flag.full s.epoch = .changes [] [] := by
  decide

/-- The claim fails for an object that is deleted and created again between two reports: it is in the
store, it is reported as updated and as deleted, and the controller sends updates first (watch.rs:199-217).
-/
theorem C35_violated_recreate :
    let s := Store.init.run revNewer [.sync [topicA 5 0]]
    let t := s.run revNewer [.apply [.del 1], .apply [.mod (topicA 6 1)]]
    t.changesSince Flag.full s.epoch = .changes [topicA 6 1] [topicA 5 0] ∧
    t.content 1 = some (topicA 6 1) ∧
    s.content.acts ([topicA 6 1].map (fun o => .put o.key o) ++ [topicA 5 0].map fun o => .del o.key) 1
      = none := by
  decide

/-! ## C36 -/

section
variable {K Sp St Me : Type} [DecidableEq K] [DecidableEq Sp] [DecidableEq St] [DecidableEq Me]

/-- A client: spec and status of every object are sent (metadata.rs:43-50), all changes are reported, a
new connection starts with an empty store (sync/store.rs:40-56). -/
def clientPeer : Peer K Sp St Me (Sp × St) (Store K Sp St Unit) :=
  ⟨fun o => (o.spec, o.status), Flag.full, false, clientApply, fun _ => Store.init⟩

/-- A broker: `g` extracts the object that is sent, which depends on the components that `flag` selects
(private_server.rs:393, 446-452); its store outlives the connection. -/
def brokerPeer {V : Type} [DecidableEq V] (g : Obj K Sp St Me → V) (flag : Flag) :
    Peer K Sp St Me V (BStore K V) :=
  ⟨g, flag, true, brokerApply, id⟩

/-- Clients: for any history of controller changes, messages, new connections and controller restarts,
once all messages are processed and the last report is current, the client's spec and status of every key
are the controller's.

Missing: the hypothesis that every report is clean (`Link.CleanPush`: no key both updated and deleted, no
empty full report to a client that knows something); see the two violations below. -/
theorem C36_client_partial (newer : Me → Me → Bool) (l : List (Obj K Sp St Me))
    (p : Store K Sp St Unit) (es : List (Ev K Sp St Me)) :
    let x := (Link.init newer l p).run newer clientPeer es
    (Link.init newer l p).CleanRun newer clientPeer clientView es →
    x.queue = [] → x.last = x.sc.epoch →
    ∀ k, (x.peer.find k).map (fun e => (e.obj.spec, e.obj.status)) =
      (x.sc.content k).map fun o => (o.spec, o.status) := by
  intro x hc hq hl k
  have ha : (clientPeer : Peer K Sp St Me (Sp × St) (Store K Sp St Unit)).Ok clientView :=
    ⟨clientApply_view, rfl, fun o o' h => by
      obtain ⟨_, h1, h2, _⟩ := h
      show (o.spec, o.status) = (o'.spec, o'.status)
      rw [h1 rfl, h2 rfl]⟩
  exact congrFun ((LinkOk.run ha es (LinkOk.init clientPeer clientView l p) hc).settled hl hq) k

/-- Brokers: the same, for whatever is sent of the objects.

Missing: as for clients. -/
theorem C36_broker_partial {V : Type} [DecidableEq V] (newer : Me → Me → Bool)
    (g : Obj K Sp St Me → V) (flag : Flag)
    (hf : flag.spec = true ∨ flag.status = true ∨ flag.item = true)
    (hg : ∀ o o', SameIn flag (some o) (some o') → g o = g o')
    (l : List (Obj K Sp St Me)) (p : BStore K V) (es : List (Ev K Sp St Me)) :
    let x := (Link.init newer l p).run newer (brokerPeer g flag) es
    (Link.init newer l p).CleanRun newer (brokerPeer g flag) BStore.get es →
    x.queue = [] → x.last = x.sc.epoch →
    ∀ k, x.peer.get k = (x.sc.content k).map g := by
  intro x hc hq hl k
  have hf' : flag.isNone = false := by
    unfold Flag.isNone
    rcases hf with h | h | h <;> simp [h]
  have ha : (brokerPeer g flag).Ok BStore.get := ⟨brokerApply_get, hf', hg⟩
  exact congrFun ((LinkOk.run ha es (LinkOk.init (brokerPeer g flag) BStore.get l p) hc).settled hl hq) k

/-- And it comes to that: after one more report and the processing of everything that has been sent, the
client agrees with the controller.

Missing: as for `C36_client_partial`. -/
theorem C36_converges_partial (newer : Me → Me → Bool) (l : List (Obj K Sp St Me))
    (p : Store K Sp St Unit) (es : List (Ev K Sp St Me)) :
    let x := (Link.init newer l p).run newer clientPeer es
    (Link.init newer l p).CleanRun newer clientPeer clientView es → x.CleanPush clientPeer clientView →
    let y := x.run newer clientPeer (.push :: List.replicate (x.queue.length + 1) .recv)
    y.sc = x.sc ∧ y.queue = [] ∧
    ∀ k, (y.peer.find k).map (fun e => (e.obj.spec, e.obj.status)) =
      (x.sc.content k).map fun o => (o.spec, o.status) := by
  intro x hc hp y
  have ha : (clientPeer : Peer K Sp St Me (Sp × St) (Store K Sp St Unit)).Ok clientView :=
    ⟨clientApply_view, rfl, fun o o' h => by
      obtain ⟨_, h1, h2, _⟩ := h
      show (o.spec, o.status) = (o'.spec, o'.status)
      rw [h1 rfl, h2 rfl]⟩
  have hx := LinkOk.run ha es (LinkOk.init clientPeer clientView l p) hc
  have hpush := hx.push ha hp
  have hlen : (x.push clientPeer).queue.length ≤ x.queue.length + 1 := by
    unfold Link.push
    dsimp only
    split <;> simp
  obtain ⟨h1, h2, h3⟩ := recv_all (newer := newer) (a := clientPeer) _ _ hlen
  have hy := LinkOk.run ha _ hpush (recv_clean (newer := newer) (x.queue.length + 1) _)
  refine ⟨h1, h3, fun k => ?_⟩
  have := congrFun (hy.settled (h2.trans (by rw [h1]; rfl)) h3) k
  unfold expected at this
  rw [h1] at this
  exact this

end

/-- a client that receives a full report and an incremental one, over two connections -/
example :
    let es : List (Ev Nat Nat Nat Nat) := [.push, .recv, .op (.apply [.del 1]), .push, .recv, .reconnect,
      .op (.apply [.mod (topicB 7 1)]), .push, .recv]
    let x0 := Link.init revNewer [topicA 5 0, topicB 6 0] (Store.init : Store Nat Nat Nat Unit)
    let x := x0.run revNewer clientPeer es
    x.queue = [] ∧ x.last = x.sc.epoch ∧ (x.peer.find 2).map (·.obj.spec) = some 7 := by
  decide

example : (Link.init revNewer [topicA 5 0, topicB 6 0] Store.init).CleanRun revNewer clientPeer clientView
    [.push, .recv, .op (.apply [.del 1]), .push, .recv] := by
  refine ⟨fun _ => ?_, nofun, nofun, fun _ => ?_, nofun, trivial⟩
  · exact Or.inl (List.cons_ne_nil _ _)
  · exact (by decide : ∀ o ∈ ([] : List NatObj), ∀ p ∈ [topicA 5 0], o.key ≠ p.key)

/-- The claim fails for a topic that is deleted and created again between two reports: it is lost at the
client although everything has been processed. -/
theorem C36_violated_recreate :
    let x := (Link.init revNewer [topicA 5 0] (Store.init : Store Nat Nat Nat Unit)).run revNewer clientPeer
      [.push, .recv, .op (.apply [.del 1]), .op (.apply [.mod (topicA 6 1)]), .push, .recv]
    x.queue = [] ∧ x.last = x.sc.epoch ∧ (x.sc.content 1).map (·.spec) = some 6 ∧
    x.peer.find 1 = none := by
  decide

/-- The claim fails when everything has been deleted and the report is a full one: nothing is sent to a
broker (private_server.rs:394), and a client ignores it (controller.rs:149); both keep what they had. -/
theorem C36_violated_empty_sync :
    (let x := (Link.init revNewer [topicA 5 0] ([] : BStore Nat Nat)).run revNewer
        (brokerPeer (·.spec) ⟨true, false, false⟩)
        [.push, .recv, .op (.apply [.del 1]), .reconnect, .push, .recv];
      x.queue = [] ∧ x.last = x.sc.epoch ∧ x.sc.content 1 = none ∧ x.peer.get 1 = some 5) ∧
    (let x := (Link.init revNewer [topicA 5 0] (Store.init : Store Nat Nat Nat Unit)).run revNewer clientPeer
        [.push, .recv, .op (.sync []), .push, .recv];
      x.queue = [] ∧ x.last = x.sc.epoch ∧ x.sc.content 1 = none ∧
      (x.peer.find 1).map (·.obj.spec) = some 5) := by
  decide

/-! ## C37 -/

section
variable {K Sp St Me : Type} [DecidableEq K] [DecidableEq Sp] [DecidableEq St] [DecidableEq Me]

/-- `k` steps of one listener within `listen`. -/
def watcherSteps (published : Int) : Nat → Watcher K Sp St Me → Option (Watcher K Sp St Me)
  | 0, w => some w
  | k + 1, w => (w.next published).bind (watcherSteps published k)

/-- Any number of tasks write, any number of listeners wait, every interleaving, provided that writers
publish in the order in which they wrote: a listener that sleeps and has not seen the present content is
about to be woken (some task has yet to publish or to notify); once nothing is under way, a listener that
has not seen the present content is not asleep and returns from `listen` within two steps; a notification
leaves no listener asleep; and after `sync_changes` a listener has seen the present content.

Missing: the order of publications, which the code ensures only with a single writer; see
`C37_violated_concurrent_writers`. -/
theorem C37_in_order_partial (newer : Me → Me → Bool) (b : Board K Sp St Me)
    (h : BoardReach newer True b) (i : Nat) (hseen : (b.watchers i).seen ≠ b.store.content) :
    ((b.watchers i).phase = .waiting false → b.pending ≠ [] ∨ 0 < b.notifies) ∧
    (b.pending = [] → b.notifies = 0 →
      ∃ k ≤ 2, ∃ w, watcherSteps b.published k (b.watchers i) = some w ∧ w.phase = .outside ∧
        w.hasChange b.published) ∧
    (b.watchers i).wake.phase ≠ .waiting false ∧
    ((b.watchers i).sync b.store).seen = b.store.content := by
  have haw := Awake.reach h i
  obtain ⟨hwf, hhon⟩ := Honest.reach h
  obtain ⟨s, hs, he, hc⟩ := hhon i
  have hord : (b.published :: b.pending).getLast? = some b.store.epoch := Ordered.reach h
  have hlt : (b.watchers i).last < b.store.epoch := by
    have := hs.le
    rcases Int.lt_or_le (b.watchers i).last b.store.epoch with h1 | h1
    · exact h1
    · exact absurd (hc.symm.trans (same_epoch hwf hs (by omega))) hseen
  have hpub : b.pending = [] → b.published = b.store.epoch := by
    intro hp
    rw [hp] at hord
    simpa using hord
  have hslept : (b.watchers i).phase = .waiting false → b.pending ≠ [] ∨ 0 < b.notifies := by
    intro hp
    rcases haw hp with h1 | h1
    · left
      intro hpe
      have := hpub hpe
      omega
    · exact Or.inr h1
  refine ⟨hslept, ?_, wake_phase, rfl⟩
  intro hp hn
  have hch : (b.watchers i).hasChange b.published := by
    show _ < _
    rw [hpub hp]; exact hlt
  generalize hw : b.watchers i = w at hch hslept
  generalize b.published = p at hch
  obtain ⟨last, phase, seen⟩ := w
  cases phase with
  | outside => exact ⟨0, by omega, _, rfl, rfl, hch⟩
  | checked =>
    refine ⟨2, by omega, ⟨last, .outside, seen⟩, ?_, rfl, hch⟩
    have hch' : (⟨last, .registered false, seen⟩ : Watcher K Sp St Me).hasChange p := hch
    show watcherSteps p 1 ⟨last, .registered false, seen⟩ = _
    show some (if _ then _ else _) = _
    rw [if_pos hch']
  | registered bb =>
    refine ⟨1, by omega, ⟨last, .outside, seen⟩, ?_, rfl, hch⟩
    show some (if _ then _ else _) = _
    rw [if_pos hch]
  | waiting bb =>
    cases bb with
    | true => exact ⟨1, by omega, ⟨last, .outside, seen⟩, rfl, rfl, hch⟩
    | false =>
      rcases hslept rfl with h1 | h1
      · exact absurd hp h1
      · omega

end

abbrev NatBoard := Board Nat Nat Nat Nat

def writeA : Op Nat Nat Nat Nat := .apply [.mod (topicA 5 0)]
def writeB : Op Nat Nat Nat Nat := .apply [.mod (topicB 6 0)]

/-- The listener syncs after the first write, sleeps, and the second write wakes it. -/
example : ∃ b : NatBoard, BoardReach revNewer True b ∧ (b.watchers 0).phase = .waiting false ∧
    (b.watchers 0).seen 2 ≠ b.store.content 2 ∧ b.pending = [2] := by
  refine ⟨_, .step (.step (.step (.step (.step (.step (.step .init (.write _ writeA))
    (.publish _ [] [] 1 rfl fun _ => rfl)) (.sync _ 0 rfl)) (.listen _ 0 _ rfl)) (.listen _ 0 _ rfl))
    (.listen _ 0 _ rfl)) (.write _ writeB), ?_⟩
  decide

/-- The claim fails with two writers: the second publishes before the first, which then takes the
published epoch back to one that the listener has already seen.  The listener sleeps, everything is
announced, and the second write is not seen. -/
theorem C37_violated_concurrent_writers :
    ∃ b : NatBoard, BoardReach revNewer False b ∧ (b.watchers 0).phase = .waiting false ∧
      b.pending = [] ∧ b.notifies = 0 ∧ (b.watchers 0).seen 2 = none ∧
      b.store.content 2 = some (topicB 6 0) := by
  refine ⟨_, .step (.step (.step (.step (.step (.step (.step (.step (.step (.step .init
    (.write _ writeA)) (.sync _ 0 rfl)) (.write _ writeB)) (.publish _ [1] [] 2 rfl nofun))
    (.publish _ [] [] 1 rfl nofun)) (.notify _ (by decide))) (.notify _ (by decide)))
    (.listen _ 0 _ rfl)) (.listen _ 0 _ rfl)) (.listen _ 0 _ rfl), ?_⟩
  decide

end Verif.Props
