import Verif.Mirror.TopicsInv
/-!
# What is offered to a remote cluster, and what a controller can do to a topic
-/

namespace Verif.Mirror.Topics

/-- The keys of the stores at a home cluster are unique. -/
structure HomeState.WF (h : HomeState) : Prop where
  topics : (h.topics.map (·.1)).Nodup
  spus : (h.spus.map (·.id)).Nodup
  maps : ∀ e ∈ h.topics, (e.2.replicaMap.map (·.1)).Nodup

/-- The home cluster has a topic `k` with a partition for the remote cluster `rid`, whose leader is the registered
broker `spu`. -/
def MirroredAt (h : HomeState) (rid k : String) (spec : TopicSpec) (spu : SpuRef) (source : Bool) : Prop :=
  ∃ (topic : HomeTopic) (parts : List HomePart) (i : Nat) (followers : List Int),
    (k, topic) ∈ h.topics ∧ topic.spec = spec ∧ spec.replicas = .home parts source ∧
    parts[i]? = some ⟨rid⟩ ∧ (∀ j < i, parts[j]? ≠ some ⟨rid⟩) ∧
    (i, spu.id :: followers) ∈ topic.replicaMap ∧
    (⟨spu.key, spu.id, spu.endpoint⟩ : Spu) ∈ h.spus

theorem find_unique {α β : Type} [DecidableEq β] {f : α → β} {l : List α} (hn : (l.map f).Nodup) {a : α} (ha : a ∈ l) :
    l.find? (fun x => f x == f a) = some a := by
  induction l with
  | nil => simp at ha
  | cons x l ih =>
    simp only [List.map_cons, List.nodup_cons] at hn
    rcases List.mem_cons.mp ha with rfl | ha
    · simp
    · have : f x ≠ f a := fun h => hn.1 (List.mem_map.mpr ⟨a, ha, h.symm⟩)
      rw [List.find?_cons_of_neg (by simpa using this)]
      exact ih hn.2 ha

theorem snapshot_complete {h : HomeState} (wf : h.WF) {rid k : String} {spec : TopicSpec} {spu : SpuRef} {source : Bool}
    (hm : MirroredAt h rid k spec spu source) :
    (⟨k, spec, spu.id, spu.key, spu.endpoint⟩ : Wrapper) ∈ snapshot h rid := by
  obtain ⟨topic, parts, i, fs, hmem, rfl, hrep, hi, hlt, hrm, hspu⟩ := hm
  refine List.mem_filterMap.mpr ⟨(k, topic), hmem, ?_⟩
  unfold wrap
  rw [hrep]
  dsimp only
  have h1 : parts.findIdx? (fun p => p.remoteCluster == rid) = some i := by
    rw [List.findIdx?_eq_some_iff_getElem]
    obtain ⟨hl, hv⟩ := List.getElem?_eq_some_iff.mp hi
    refine ⟨hl, by simp [hv], ?_⟩
    intro j hj
    have := hlt j hj
    have hj' : j < parts.length := by omega
    rw [List.getElem?_eq_getElem hj'] at this
    intro hc
    apply this
    congr 1
    cases hp : parts[j]
    rw [hp] at hc
    simpa using hc
  rw [h1]
  dsimp only
  have h2 := find_unique (f := fun r : Nat × List Int => r.1) (wf.maps _ hmem) hrm
  dsimp only at h2
  rw [h2]
  dsimp only [Option.map_some, Option.bind_some, List.head?_cons]
  have h3 := find_unique (f := fun s : Spu => s.id) wf.spus hspu
  dsimp only at h3
  rw [h3]

theorem snapshot_sound {h : HomeState} {rid : String} {w : Wrapper} (hw : w ∈ snapshot h rid) :
    ∃ source, MirroredAt h rid w.key w.spec ⟨w.spuId, w.spuKey, w.spuEndpoint⟩ source := by
  obtain ⟨e, he, hwe⟩ := List.mem_filterMap.mp hw
  unfold wrap at hwe
  split at hwe
  · next parts src hp =>
    split at hwe
    · next i hi =>
      split at hwe
      · next id hid =>
        split at hwe
        · next sp hsp =>
          cases hwe
          obtain ⟨hl, hv, hlt⟩ := List.findIdx?_eq_some_iff_getElem.mp hi
          obtain ⟨ids, hids, hhead⟩ := Option.bind_eq_some_iff.mp hid
          obtain ⟨row, hrow, rfl⟩ := Option.map_eq_some_iff.mp hids
          have hid' : sp.id = id := by simpa using List.find?_some hsp
          have hrow' : row.1 = i := by simpa using List.find?_some hrow
          refine ⟨src, e.2, parts, i, row.2.tail, he, rfl, hp, ?_, ?_, ?_, ?_⟩
          · rw [List.getElem?_eq_getElem hl]
            congr 1
            cases hp : parts[i]
            rw [hp] at hv
            simpa using hv
          · intro j hj hc
            have hj' : j < parts.length := by omega
            rw [List.getElem?_eq_getElem hj'] at hc
            have := hlt j hj
            have hc := Option.some.inj hc
            rw [hc] at this
            simp at this
          · have := List.mem_of_find?_eq_some hrow
            rw [← hrow']
            have hl : row.2 = id :: row.2.tail := by
              cases hr : row.2 with
              | nil => rw [hr] at hhead; cases hhead
              | cons a l => rw [hr] at hhead; cases hhead; rfl
            show (row.1, id :: row.2.tail) ∈ _
            rw [← hl]; exact this
          · have := List.mem_of_find?_eq_some hsp
            rw [← hid']; exact this
        · cases hwe
      · cases hwe
    · cases hwe
  · cases hwe

/-- The home cluster has a topic `k` for the remote cluster, with a registered leader. -/
def Offered (h : HomeState) (rid k : String) : Prop := ∃ spec spu source, MirroredAt h rid k spec spu source

theorem offered_mem {h : HomeState} (wf : h.WF) {rid k : String} (ho : Offered h rid k) :
    k ∈ (snapshot h rid).map (·.key) := by
  obtain ⟨spec, spu, src, hm⟩ := ho
  exact List.mem_map.mpr ⟨_, snapshot_complete wf hm, rfl⟩

theorem mem_offered {h : HomeState} {rid k : String} (hk : k ∈ (snapshot h rid).map (·.key)) : Offered h rid k := by
  obtain ⟨w, hw, rfl⟩ := List.mem_map.mp hk
  obtain ⟨src, hm⟩ := snapshot_sound hw
  exact ⟨_, _, _, hm⟩

theorem syncTopic_write {hid : String} {cur : Option TopicSpec} {w : Wrapper} {t : TopicSpec}
    (h : syncTopic hid cur w = .write t) : mirrors hid t = true := by
  unfold syncTopic at h
  split at h
  · next parts src hp =>
    dsimp only at h
    split at h
    · split at h
      · cases h
      · cases h; simp [mirrors, adopt]
    · cases h; simp [mirrors, adopt]
  · cases h

/-! ## A topic that stays mirrored stays -/

structure Keeps (hid k : String) (s : World) : Prop where
  here : ∃ t, get s.topics k = some t ∧ mirrors hid t = true
  acts : ∀ a ∈ s.acts, match a with
    | .del x => x ≠ k
    | .put x t => x = k → mirrors hid t = true
  inbox : ∀ c, s.conn = some c → ∀ r ∈ c.inbox, c.home.id = hid ↔ k ∈ r.map (·.key)
  work : ∀ c, s.conn = some c → ∀ t ∈ c.work, match t with
    | .del x => x ≠ k
    | .sync w => w.key = k → c.home.id = hid

/-- What is demanded of a state of the run for `Keeps` to be kept: a connection to the home cluster `hid` offers the
topic, a connection to another one does not. -/
def OffersOk (hid k : String) (s : World) : Prop :=
  ∀ c, s.conn = some c → (s.homes c.home.endpoint).WF ∧
    (c.home.id = hid ↔ Offered (s.homes c.home.endpoint) c.home.remoteId k)

theorem mirrors_inj {a b : String} {t : TopicSpec} (ha : mirrors a t = true) (hb : mirrors b t = true) : a = b := by
  unfold mirrors at ha hb
  split at ha
  · next h _ _ heq =>
    rw [heq] at hb
    dsimp only at hb
    have ha : h = a := by simpa using ha
    have hb : h = b := by simpa using hb
    rw [← ha, ← hb]
  · cases ha

theorem apply_here {hid k : String} {m : List (String × TopicSpec)} {a : Act}
    (h : ∃ t, get m k = some t ∧ mirrors hid t = true)
    (ha : match a with
    | .del x => x ≠ k
    | .put x t => x = k → mirrors hid t = true) :
    ∃ t, get (a.apply m) k = some t ∧ mirrors hid t = true := by
  obtain ⟨t, ht, hm⟩ := h
  cases a with
  | del x =>
    refine ⟨t, ?_, hm⟩
    show get (del m x) k = _
    rw [get_del, if_neg (fun h => ha h.symm)]; exact ht
  | put x t' =>
    show ∃ t, get (put m x t') k = some t ∧ _
    rw [get_put]
    by_cases hx : k = x
    · rw [if_pos hx]; exact ⟨t', rfl, ha hx.symm⟩
    · rw [if_neg hx]; exact ⟨t, ht, hm⟩

theorem Keeps.step {hid k : String} {s : World} (h : Keeps hid k s) (ho : OffersOk hid k s)
    (hnd : (s.topics.map (·.1)).Nodup) (e : Ev)
    (he : ∀ a, e = .admin a → match a with
    | .del x => x ≠ k
    | .put x t => x = k → mirrors hid t = true) : Keeps hid k (step s e) := by
  cases e with
  | homeChange a st => exact ⟨h.here, h.acts, h.inbox, h.work⟩
  | setMirrors m => exact ⟨h.here, h.acts, h.inbox, h.work⟩
  | connect n =>
    simp only [Topics.step]
    split
    · split
      · refine ⟨h.here, h.acts, ?_, ?_⟩
        · intro c hc; cases hc; intro r hr; simp at hr
        · intro c hc; cases hc; intro r hr; simp at hr
      · exact h
    · exact h
  | send =>
    simp only [Topics.step]
    split
    · next c hc =>
      split
      · refine ⟨h.here, h.acts, ?_, ?_⟩
        · intro c' hc'; cases hc'
          intro r hr
          rcases List.mem_append.mp hr with hr | hr
          · exact h.inbox c hc r hr
          · have hr := List.mem_singleton.mp hr
            subst hr
            have := ho c hc
            constructor
            · intro hid'; exact offered_mem this.1 (this.2.mp hid')
            · intro hk; exact this.2.mpr (mem_offered hk)
        · intro c' hc'; cases hc'; exact h.work c hc
      · exact ⟨h.here, h.acts, nofun, nofun⟩
    · exact h
  | recv =>
    simp only [Topics.step]
    split
    · next c hc =>
      split
      · next r rest hw hi =>
        have hr := h.inbox c hc r (by rw [hi]; exact List.mem_cons_self ..)
        refine ⟨h.here, h.acts, ?_, ?_⟩
        · intro c' hc'; cases hc'
          intro r' hr'; exact h.inbox c hc r' (by rw [hi]; exact List.mem_cons_of_mem _ hr')
        · intro c' hc'; cases hc'
          intro t ht
          rcases List.mem_append.mp ht with ht | ht
          · obtain ⟨x, hx, rfl⟩ := List.mem_map.mp ht
            intro hxk
            subst hxk
            obtain ⟨hnot, t, htm, hm⟩ := mem_toDelete hx
            obtain ⟨t', ht', hm'⟩ := h.here
            have := get_of_mem hnd htm
            rw [ht'] at this
            cases this
            exact hnot (hr.mp (mirrors_inj hm hm'))
          · obtain ⟨w, hwr, rfl⟩ := List.mem_map.mp ht
            intro hk
            exact hr.mpr (List.mem_map.mpr ⟨w, hwr, hk⟩)
      · exact h
    · exact h
  | issue =>
    simp only [Topics.step]
    split
    · next c hc =>
      split
      · exact h
      · next x rest hw =>
        have hx := h.work c hc (.del x) (by rw [hw]; exact List.mem_cons_self ..)
        refine ⟨h.here, ?_, ?_, ?_⟩
        · intro a ha
          rcases List.mem_append.mp ha with ha | ha
          · exact h.acts a ha
          · have := List.mem_singleton.mp ha
            subst this; exact hx
        · intro c' hc'; cases hc'; exact h.inbox c hc
        · intro c' hc'; cases hc'
          intro t ht; exact h.work c hc t (by rw [hw]; exact List.mem_cons_of_mem _ ht)
      · next w rest hw =>
        have hx := h.work c hc (.sync w) (by rw [hw]; exact List.mem_cons_self ..)
        have hrest : ∀ t ∈ rest, t ∈ c.work := fun t ht => by rw [hw]; exact List.mem_cons_of_mem _ ht
        split
        · refine ⟨h.here, h.acts, ?_, ?_⟩
          · intro c' hc'; cases hc'; exact h.inbox c hc
          · intro c' hc'; cases hc'; intro t ht; exact h.work c hc t (hrest t ht)
        · next t hs =>
          refine ⟨h.here, ?_, ?_, ?_⟩
          · intro a ha
            rcases List.mem_append.mp ha with ha | ha
            · exact h.acts a ha
            · have := List.mem_singleton.mp ha
              subst this
              intro hk
              rw [← hx hk]; exact syncTopic_write hs
          · intro c' hc'; cases hc'; exact h.inbox c hc
          · intro c' hc'; cases hc'; intro t ht; exact h.work c hc t (hrest t ht)
        · exact ⟨h.here, h.acts, nofun, nofun⟩
    · exact h
  | carry =>
    simp only [Topics.step]
    split
    · exact h
    · next a rest ha =>
      refine ⟨apply_here h.here (h.acts a (by rw [ha]; exact List.mem_cons_self ..)), ?_, h.inbox, h.work⟩
      intro b hb; exact h.acts b (by rw [ha]; exact List.mem_cons_of_mem _ hb)
  | fail => exact ⟨h.here, h.acts, nofun, nofun⟩
  | admin a => exact ⟨apply_here h.here (he a rfl), h.acts, h.inbox, h.work⟩

theorem del_nodup {α : Type} {m : List (String × α)} (h : (m.map (·.1)).Nodup) (k : String) :
    ((del m k).map (·.1)).Nodup := List.Nodup.sublist (List.Sublist.map _ List.filter_sublist) h

theorem apply_nodup {m : List (String × TopicSpec)} (h : (m.map (·.1)).Nodup) (a : Act) :
    ((a.apply m).map (·.1)).Nodup := by
  cases a with
  | del k => exact del_nodup h k
  | put k t =>
    show (((k, t) :: del m k).map (·.1)).Nodup
    rw [List.map_cons, List.nodup_cons]
    refine ⟨?_, del_nodup h k⟩
    intro hm
    obtain ⟨e, he, hk⟩ := List.mem_map.mp hm
    have := (List.mem_filter.mp he).2
    simp at this
    exact this hk

theorem step_topics (s : World) (e : Ev) : (step s e).topics = s.topics ∨ ∃ a : Act, (step s e).topics = a.apply s.topics := by
  cases e <;> simp only [step] <;> (repeat' split) <;> first
    | exact Or.inl rfl
    | exact Or.inl trivial
    | exact Or.inr ⟨_, rfl⟩

theorem step_nodup {s : World} (h : (s.topics.map (·.1)).Nodup) (e : Ev) : ((step s e).topics.map (·.1)).Nodup := by
  rcases step_topics s e with hh | ⟨a, hh⟩
  · rw [hh]; exact h
  · rw [hh]; exact apply_nodup h a

/-! ## A topic that is not mirrored is left alone -/

/-- Not a topic mirrored from any home cluster. -/
def Local (t : TopicSpec) : Prop := ∀ h l b, t.replicas ≠ .remote h l b

theorem Local.not {t : TopicSpec} (h : Local t) (hid : String) : mirrors hid t = false := by
  unfold mirrors
  split
  · next heq => exact absurd heq (h _ _ _)
  · rfl

structure Alone (k : String) (s : World) : Prop where
  here : ∀ t, get s.topics k = some t → Local t
  acts : ∀ a ∈ s.acts, match a with
    | .del x => x ≠ k
    | .put x _ => x ≠ k
  inbox : ∀ c, s.conn = some c → ∀ r ∈ c.inbox, k ∉ r.map (·.key)
  work : ∀ c, s.conn = some c → ∀ t ∈ c.work, match t with
    | .del x => x ≠ k
    | .sync w => w.key ≠ k

theorem apply_get {m : List (String × TopicSpec)} {k : String} (a : Act) (ha : match a with
    | .del x => x ≠ k
    | .put x _ => x ≠ k) : get (a.apply m) k = get m k := by
  cases a with
  | del x =>
    show get (del m x) k = _
    rw [get_del, if_neg (fun h => ha h.symm)]
  | put x t' =>
    show get (put m x t') k = _
    rw [get_put, if_neg (fun h => ha h.symm)]

theorem apply_congr {m m' : List (String × TopicSpec)} {k : String} (h : get m k = get m' k) (a : Act) :
    get (a.apply m) k = get (a.apply m') k := by
  cases a with
  | del x => show get (del m x) k = get (del m' x) k; rw [get_del, get_del, h]
  | put x t' => show get (put m x t') k = get (put m' x t') k; rw [get_put, get_put, h]

theorem Alone.step {k : String} {s : World} (h : Alone k s)
    (hno : ∀ c, s.conn = some c → ¬ Offered (s.homes c.home.endpoint) c.home.remoteId k)
    (hnd : (s.topics.map (·.1)).Nodup)
    (e : Ev) (he : ∀ t, e = .admin (.put k t) → Local t) :
    Alone k (step s e) ∧ ((∀ a, e ≠ .admin a) → get (step s e).topics k = get s.topics k) := by
  cases e with
  | homeChange a st => exact ⟨⟨h.here, h.acts, h.inbox, h.work⟩, fun _ => rfl⟩
  | setMirrors m => exact ⟨⟨h.here, h.acts, h.inbox, h.work⟩, fun _ => rfl⟩
  | connect n =>
    simp only [Topics.step]
    split
    · split
      · refine ⟨⟨h.here, h.acts, ?_, ?_⟩, fun _ => rfl⟩
        · intro c hc; cases hc; intro r hr; simp at hr
        · intro c hc; cases hc; intro r hr; simp at hr
      · exact ⟨h, fun _ => rfl⟩
    · exact ⟨h, fun _ => rfl⟩
  | send =>
    simp only [Topics.step]
    split
    · next c hc =>
      split
      · refine ⟨⟨h.here, h.acts, ?_, ?_⟩, fun _ => rfl⟩
        · intro c' hc'; cases hc'
          intro r hr
          rcases List.mem_append.mp hr with hr | hr
          · exact h.inbox c hc r hr
          · have hr := List.mem_singleton.mp hr
            subst hr
            intro hk; exact hno c hc (mem_offered hk)
        · intro c' hc'; cases hc'; exact h.work c hc
      · exact ⟨⟨h.here, h.acts, nofun, nofun⟩, fun _ => rfl⟩
    · exact ⟨h, fun _ => rfl⟩
  | recv =>
    simp only [Topics.step]
    split
    · next c hc =>
      split
      · next r rest hw hi =>
        have hr := h.inbox c hc r (by rw [hi]; exact List.mem_cons_self ..)
        refine ⟨⟨h.here, h.acts, ?_, ?_⟩, fun _ => rfl⟩
        · intro c' hc'; cases hc'
          intro r' hr'; exact h.inbox c hc r' (by rw [hi]; exact List.mem_cons_of_mem _ hr')
        · intro c' hc'; cases hc'
          intro t ht
          rcases List.mem_append.mp ht with ht | ht
          · obtain ⟨x, hx, rfl⟩ := List.mem_map.mp ht
            intro hxk
            subst hxk
            obtain ⟨hnot, t, htm, hm⟩ := mem_toDelete hx
            have := h.here t (get_of_mem hnd htm)
            rw [this.not] at hm
            cases hm
          · obtain ⟨w, hwr, rfl⟩ := List.mem_map.mp ht
            intro hk
            exact hr (List.mem_map.mpr ⟨w, hwr, hk⟩)
      · exact ⟨h, fun _ => rfl⟩
    · exact ⟨h, fun _ => rfl⟩
  | issue =>
    simp only [Topics.step]
    split
    · next c hc =>
      split
      · exact ⟨h, fun _ => rfl⟩
      · next x rest hw =>
        have hx := h.work c hc (.del x) (by rw [hw]; exact List.mem_cons_self ..)
        refine ⟨⟨h.here, ?_, ?_, ?_⟩, fun _ => rfl⟩
        · intro a ha
          rcases List.mem_append.mp ha with ha | ha
          · exact h.acts a ha
          · have := List.mem_singleton.mp ha
            subst this; exact hx
        · intro c' hc'; cases hc'; exact h.inbox c hc
        · intro c' hc'; cases hc'
          intro t ht; exact h.work c hc t (by rw [hw]; exact List.mem_cons_of_mem _ ht)
      · next w rest hw =>
        have hx := h.work c hc (.sync w) (by rw [hw]; exact List.mem_cons_self ..)
        have hrest : ∀ t ∈ rest, t ∈ c.work := fun t ht => by rw [hw]; exact List.mem_cons_of_mem _ ht
        split
        · refine ⟨⟨h.here, h.acts, ?_, ?_⟩, fun _ => rfl⟩
          · intro c' hc'; cases hc'; exact h.inbox c hc
          · intro c' hc'; cases hc'; intro t ht; exact h.work c hc t (hrest t ht)
        · next t hs =>
          refine ⟨⟨h.here, ?_, ?_, ?_⟩, fun _ => rfl⟩
          · intro a ha
            rcases List.mem_append.mp ha with ha | ha
            · exact h.acts a ha
            · have := List.mem_singleton.mp ha
              subst this
              exact hx
          · intro c' hc'; cases hc'; exact h.inbox c hc
          · intro c' hc'; cases hc'; intro t ht; exact h.work c hc t (hrest t ht)
        · exact ⟨⟨h.here, h.acts, nofun, nofun⟩, fun _ => rfl⟩
    · exact ⟨h, fun _ => rfl⟩
  | carry =>
    simp only [Topics.step]
    split
    · exact ⟨h, fun _ => rfl⟩
    · next a rest ha =>
      have := apply_get (m := s.topics) a (h.acts a (by rw [ha]; exact List.mem_cons_self ..))
      refine ⟨⟨?_, ?_, h.inbox, h.work⟩, fun _ => this⟩
      · intro t ht; exact h.here t (by rw [← this]; exact ht)
      · intro b hb; exact h.acts b (by rw [ha]; exact List.mem_cons_of_mem _ hb)
  | fail => exact ⟨⟨h.here, h.acts, nofun, nofun⟩, fun _ => rfl⟩
  | admin a =>
    refine ⟨⟨?_, h.acts, h.inbox, h.work⟩, fun hh => absurd rfl (hh a)⟩
    intro t ht
    have ht : get (a.apply s.topics) k = some t := ht
    cases a with
    | del x =>
      have ht : get (del s.topics x) k = some t := ht
      rw [get_del] at ht
      split at ht
      · cases ht
      · exact h.here t ht
    | put x t' =>
      have ht : get (put s.topics x t') k = some t := ht
      rw [get_put] at ht
      split at ht
      · next hx => cases ht; exact he t (by rw [hx])
      · exact h.here t ht

end Verif.Mirror.Topics
