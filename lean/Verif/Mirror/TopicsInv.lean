import Verif.Mirror.Topics
/-!
# Lemmas about the mirrored topics
-/

namespace Verif.Mirror.Topics

theorem get_del {α : Type} (m : List (String × α)) (k x : String) :
    get (del m k) x = if x = k then none else get m x := by
  unfold get del
  rw [List.find?_filter]
  split
  · next h =>
    subst h
    rw [List.find?_eq_none.mpr]
    · rfl
    · intro a _ hh
      simp at hh
  · next h =>
    congr 2
    funext a
    by_cases ha : a.1 = x
    · simp [ha, h]
    · simp [ha]

theorem get_put {α : Type} (m : List (String × α)) (k x : String) (a : α) :
    get (put m k a) x = if x = k then some a else get m x := by
  by_cases h : x = k
  · subst h
    simp [get, put]
  · have h' : ¬ k = x := fun hh => h hh.symm
    have := get_del m k x
    rw [if_neg h] at this
    rw [if_neg h, ← this]
    simp [get, put, h']

theorem mem_of_get {α : Type} {m : List (String × α)} {k : String} {a : α} (h : get m k = some a) :
    (k, a) ∈ m := by
  unfold get at h
  obtain ⟨e, he, rfl⟩ := Option.map_eq_some_iff.mp h
  have h1 := List.mem_of_find?_eq_some he
  have h2 : e.1 = k := by simpa using List.find?_some he
  rw [← h2]; exact h1

theorem get_of_mem {α : Type} {m : List (String × α)} (hn : (m.map (·.1)).Nodup) {k : String} {a : α}
    (h : (k, a) ∈ m) : get m k = some a := by
  induction m with
  | nil => simp at h
  | cons e m ih =>
    simp only [List.map_cons, List.nodup_cons] at hn
    by_cases he : e.1 = k
    · rcases List.mem_cons.mp h with rfl | h
      · simp [get]
      · exact absurd (List.mem_map.mpr ⟨_, h, rfl⟩) (he ▸ hn.1)
    · rcases List.mem_cons.mp h with rfl | h
      · exact absurd rfl he
      · have := ih hn.2 h
        simpa [get, he] using this

theorem mem_of_isSome {α : Type} {m : List (String × α)} {k : String} {a : α} (h : (k, a) ∈ m) :
    (get m k).isSome := by
  unfold get
  rw [Option.isSome_map, List.find?_isSome]
  exact ⟨_, h, by simp⟩

theorem wrap_key {h : HomeState} {rid : String} {e : String × HomeTopic} {w : Wrapper}
    (hw : wrap h rid e = some w) : w.key = e.1 ∧ w.spec = e.2.spec ∧
      ∃ parts src, w.spec.replicas = .home parts src := by
  unfold wrap at hw
  split at hw
  · next parts src hp =>
    split at hw
    · split at hw
      · split at hw
        · cases hw; exact ⟨rfl, rfl, parts, src, hp⟩
        · cases hw
      · cases hw
    · cases hw
  · cases hw

theorem snapshot_nodup {h : HomeState} (hn : (h.topics.map (·.1)).Nodup) (rid : String) :
    ((snapshot h rid).map (·.key)).Nodup := by
  unfold snapshot
  generalize h.topics = l at hn
  induction l with
  | nil => simp
  | cons e l ih =>
    simp only [List.map_cons, List.nodup_cons] at hn
    rw [List.filterMap_cons]
    split
    · exact ih hn.2
    · next w hw =>
      rw [List.map_cons, List.nodup_cons]
      refine ⟨fun hm => hn.1 ?_, ih hn.2⟩
      obtain ⟨w', hw', hk⟩ := List.mem_map.mp hm
      obtain ⟨e', he', hwe⟩ := List.mem_filterMap.mp hw'
      have := (wrap_key hwe).1
      rw [(wrap_key hw).1, this] at hk
      exact List.mem_map.mpr ⟨e', he', hk⟩

theorem snapshot_home {h : HomeState} {rid : String} {w : Wrapper} (hw : w ∈ snapshot h rid) :
    ∃ parts src, w.spec.replicas = .home parts src := by
  obtain ⟨_, _, he⟩ := List.mem_filterMap.mp hw
  exact (wrap_key he).2.2

/-- What a task does to the store when the controller waits for it. -/
def doTask (homeId : String) (m : List (String × TopicSpec)) : Task → List (String × TopicSpec)
  | .del k => del m k
  | .sync w =>
    match syncTopic homeId (get m w.key) w with
    | .write t => put m w.key t
    | _ => m

def Fine : Task → Prop
  | .del _ => True
  | .sync w => ∃ parts src, w.spec.replicas = .home parts src

theorem sync_fine (homeId : String) (cur : Option TopicSpec) {w : Wrapper}
    (h : ∃ parts src, w.spec.replicas = .home parts src) : syncTopic homeId cur w ≠ .error := by
  obtain ⟨p, b, h⟩ := h
  unfold syncTopic
  rw [h]
  dsimp only
  split
  · split <;> simp
  · simp

theorem run_append (s : World) (a b : List Ev) : run s (a ++ b) = run (run s a) b := by
  induction a generalizing s with
  | nil => rfl
  | cons e a ih => exact ih _

theorem settle_idle (n : Nat) (s : World) (c : Conn) (hc : s.conn = some c) (ha : s.acts = [])
    (hw : c.work = []) : run s (settle n) = s := by
  induction n with
  | zero => rfl
  | succ n ih =>
    show run (step (step s .issue) .carry) (settle n) = s
    have h1 : step s .issue = s := by simp only [step, hc, hw]
    have h2 : step s .carry = s := by simp only [step, ha]
    rw [h1, h2, ih]

theorem settle_run (n : Nat) (s : World) (c : Conn) (hc : s.conn = some c) (ha : s.acts = [])
    (hf : ∀ t ∈ c.work, Fine t) (hn : c.work.length ≤ n) :
    (run s (settle n)).topics = c.work.foldl (doTask c.home.id) s.topics ∧
      (run s (settle n)).conn = some { c with work := [] } ∧ (run s (settle n)).acts = [] := by
  induction n generalizing s c with
  | zero =>
    have : c.work = [] := List.length_eq_zero_iff.mp (by omega)
    refine ⟨by simp [settle, run, this], ?_, ha⟩
    show s.conn = _
    rw [hc]; congr 1
    cases c; simp_all
  | succ n ih =>
    cases hw : c.work with
    | nil =>
      rw [settle_idle _ s c hc ha hw]
      refine ⟨rfl, ?_, ha⟩
      rw [hc]; congr 1
      cases c; simp_all
    | cons t rest =>
      have hrun : run s (settle (n + 1)) = run (step (step s .issue) .carry) (settle n) := rfl
      rw [hrun]
      have hrest : ∀ t ∈ rest, Fine t := fun x hx => hf x (by rw [hw]; exact List.mem_cons_of_mem _ hx)
      have hlen : rest.length ≤ n := by rw [hw] at hn; simpa using hn
      cases t with
      | del k =>
        have h1 : step (step s .issue) .carry =
            { s with topics := del s.topics k, conn := some { c with work := rest }, acts := [] } := by
          simp only [step, hc, hw, ha, List.nil_append, Act.apply]
        have := ih { s with topics := del s.topics k, conn := some { c with work := rest }, acts := [] }
          { c with work := rest } rfl rfl hrest hlen
        rw [h1]
        exact this
      | sync w =>
        have hfw : ∃ parts src, w.spec.replicas = .home parts src :=
          hf (.sync w) (by rw [hw]; exact List.mem_cons_self ..)
        have hne := sync_fine c.home.id (get s.topics w.key) hfw
        cases hs : syncTopic c.home.id (get s.topics w.key) w with
        | error => exact absurd hs hne
        | upToDate =>
          have h1 : step (step s .issue) .carry =
              { s with conn := some { c with work := rest }, acts := [] } := by
            simp only [step, hc, hw, hs, ha]
          have := ih { s with conn := some { c with work := rest }, acts := [] }
            { c with work := rest } rfl rfl hrest hlen
          rw [h1]
          simpa only [List.foldl_cons, doTask, hs] using this
        | write t =>
          have h1 : step (step s .issue) .carry =
              { s with topics := put s.topics w.key t, conn := some { c with work := rest }, acts := [] } := by
            simp only [step, hc, hw, hs, ha, List.nil_append, Act.apply]
          have := ih { s with topics := put s.topics w.key t, conn := some { c with work := rest }, acts := [] }
            { c with work := rest } rfl rfl hrest hlen
          rw [h1]
          simpa only [List.foldl_cons, doTask, hs] using this

theorem fold_del (hid : String) (D : List String) (m : List (String × TopicSpec)) (x : String) :
    get ((D.map Task.del).foldl (doTask hid) m) x = if x ∈ D then none else get m x := by
  induction D generalizing m with
  | nil => simp
  | cons k D ih =>
    simp only [List.map_cons, List.foldl_cons, doTask]
    rw [ih, get_del]
    by_cases hx : x = k
    · simp [hx]
    · simp [hx]

/-- The topic after a topic of that name was synchronized. -/
def synced (hid : String) (cur : Option TopicSpec) (w : Wrapper) : Option TopicSpec :=
  match syncTopic hid cur w with
  | .write t => some t
  | _ => cur

theorem get_doSync (hid : String) (m : List (String × TopicSpec)) (w : Wrapper) (x : String) :
    get (doTask hid m (.sync w)) x = if x = w.key then synced hid (get m x) w else get m x := by
  unfold doTask synced
  by_cases hx : x = w.key
  · subst hx
    simp only [if_true]
    split
    · next t h => rw [get_put, if_pos rfl]
    · rfl
  · simp only [if_neg hx]
    split
    · rw [get_put, if_neg hx]
    · rfl

theorem fold_sync_other (hid : String) (r : List Wrapper) (m : List (String × TopicSpec)) (x : String)
    (hx : ∀ w ∈ r, w.key ≠ x) : get ((r.map Task.sync).foldl (doTask hid) m) x = get m x := by
  induction r generalizing m with
  | nil => rfl
  | cons w r ih =>
    simp only [List.map_cons, List.foldl_cons]
    rw [ih _ (fun w' hw' => hx w' (List.mem_cons_of_mem _ hw')), get_doSync,
      if_neg (fun h => hx w (List.mem_cons_self ..) h.symm)]

theorem fold_sync_mem (hid : String) (r : List Wrapper) (m : List (String × TopicSpec))
    (hn : (r.map (·.key)).Nodup) (w : Wrapper) (hw : w ∈ r) :
    get ((r.map Task.sync).foldl (doTask hid) m) w.key = synced hid (get m w.key) w := by
  induction r generalizing m with
  | nil => simp at hw
  | cons v r ih =>
    simp only [List.map_cons, List.nodup_cons] at hn
    simp only [List.map_cons, List.foldl_cons]
    rcases List.mem_cons.mp hw with rfl | hw
    · rw [fold_sync_other, get_doSync, if_pos rfl]
      intro w' hw' hk
      exact hn.1 (List.mem_map.mpr ⟨w', hw', hk⟩)
    · rw [ih _ hn.2 hw, get_doSync, if_neg]
      intro hk
      exact hn.1 (List.mem_map.mpr ⟨w, hw, hk⟩)

theorem mem_toDelete {hid : String} {store : List (String × TopicSpec)} {rec : List String} {k : String}
    (h : k ∈ toDelete hid store rec) : k ∉ rec ∧ ∃ t, (k, t) ∈ store ∧ mirrors hid t = true := by
  unfold toDelete at h
  rw [List.mem_filter] at h
  obtain ⟨e, he, rfl⟩ := List.mem_map.mp h.1
  rw [List.mem_filter] at he
  exact ⟨by simpa using h.2, e.2, he.1, he.2⟩

theorem toDelete_mem {hid : String} {store : List (String × TopicSpec)} {rec : List String} {k : String} {t : TopicSpec}
    (hk : k ∉ rec) (ht : (k, t) ∈ store) (hm : mirrors hid t = true) : k ∈ toDelete hid store rec := by
  unfold toDelete
  rw [List.mem_filter]
  exact ⟨List.mem_map.mpr ⟨(k, t), List.mem_filter.mpr ⟨ht, hm⟩, rfl⟩, by simpa using hk⟩

/-- One round: a message is taken and everything it asks for is done. -/
theorem round_topics (s : World) (c : Conn) (r : List Wrapper) (rest : List (List Wrapper))
    (hc : s.conn = some c) (ha : s.acts = []) (hw : c.work = []) (hi : c.inbox = r :: rest)
    (hr : ∀ w ∈ r, ∃ parts src, w.spec.replicas = .home parts src) (n : Nat)
    (hn : s.topics.length + r.length ≤ n) :
    (run s (.recv :: settle n)).topics =
      (r.map Task.sync).foldl (doTask c.home.id)
        (((toDelete c.home.id s.topics (r.map (·.key))).map Task.del).foldl (doTask c.home.id) s.topics) := by
  show (run (step s .recv) (settle n)).topics = _
  have h1 : step s .recv = { s with conn := some { c with
            inbox := rest
            work := (toDelete c.home.id s.topics (r.map (·.key))).map .del ++ r.map .sync } } := by
    simp only [step, hc, hw, hi]
  rw [h1]
  have := settle_run n { s with conn := some { c with
            inbox := rest
            work := (toDelete c.home.id s.topics (r.map (·.key))).map .del ++ r.map .sync } } _ rfl ha
    (by
      intro t ht
      rcases List.mem_append.mp ht with ht | ht
      · obtain ⟨_, _, rfl⟩ := List.mem_map.mp ht; trivial
      · obtain ⟨w, hw, rfl⟩ := List.mem_map.mp ht; exact hr w hw)
    (by
      have : (toDelete c.home.id s.topics (r.map (·.key))).length ≤ s.topics.length := by
        unfold toDelete
        refine Nat.le_trans (List.length_filter_le ..) ?_
        rw [List.length_map]
        exact List.length_filter_le ..
      simp only [List.length_append, List.length_map]
      omega)
  rw [this.1, List.foldl_append]

theorem synced_replicas {hid : String} {cur : Option TopicSpec} {w : Wrapper} {parts : List HomePart} {src : Bool}
    (h : w.spec.replicas = .home parts src) :
    ∃ t, synced hid cur w = some t ∧ t.replicas = .remote hid [⟨w.spuId, w.spuKey, w.spuEndpoint⟩] src := by
  unfold synced syncTopic
  rw [h]
  dsimp only
  split
  · next t ht =>
    split at ht
    · next cur t0 =>
      split at ht
      · cases ht
      · cases ht; exact ⟨_, rfl, rfl⟩
    · cases ht; exact ⟨_, rfl, rfl⟩
  · next hne =>
    split at hne
    · next t0 =>
      split at hne
      · next he => exact ⟨t0, rfl, by rw [← he]⟩
      · exact absurd rfl (hne _)
    · exact absurd rfl (hne _)

theorem synced_new {hid : String} {w : Wrapper} {parts : List HomePart} {src : Bool}
    (h : w.spec.replicas = .home parts src) :
    synced hid none w = some { w.spec with
      replicas := .remote hid [⟨w.spuId, w.spuKey, w.spuEndpoint⟩] src } := by
  unfold synced syncTopic
  rw [h]
  simp [adopt]

theorem synced_changed {hid : String} {t : TopicSpec} {w : Wrapper} {parts : List HomePart} {src : Bool}
    (h : w.spec.replicas = .home parts src)
    (hne : t.replicas ≠ .remote hid [⟨w.spuId, w.spuKey, w.spuEndpoint⟩] src) :
    synced hid (some t) w = some (adopt { t with
      replicas := .remote hid [⟨w.spuId, w.spuKey, w.spuEndpoint⟩] src } w.spec) := by
  unfold synced syncTopic
  rw [h]
  dsimp only
  rw [if_neg]
  intro he
  exact hne (by rw [← he])

/-! ## Runs -/

theorem run_ind {P : World → Prop} (s : World) (es : List Ev) (h0 : P s)
    (hs : ∀ (n : Nat) (e : Ev), es[n]? = some e → P (run s (es.take n)) → P (step (run s (es.take n)) e)) :
    P (run s es) := by
  induction es generalizing s with
  | nil => exact h0
  | cons e es ih =>
    refine ih (step s e) (hs 0 e rfl h0) ?_
    intro n e' he hp
    exact hs (n + 1) e' (by simpa using he) hp

end Verif.Mirror.Topics
