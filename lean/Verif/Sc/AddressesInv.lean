import Verif.Sc.Addresses
import Verif.Sc.SpuGroupsInv

/-! # Public addresses of brokers: invariants -/

namespace Verif.Sc.Addresses

open Verif.Misc Verif.Sc.Groups

theorem spuName_inj {n m : Name} {i j : Nat} (h : spuName n i = spuName m j) : n = m ∧ i = j := by
  have h1 := splitLastDash_append n (dash_not_mem_showNat i)
  have h2 := splitLastDash_append m (dash_not_mem_showNat j)
  have h' : n ++ '-' :: showNat i = m ++ '-' :: showNat j := h
  rw [h', h2] at h1
  injection h1 with h1
  injection h1 with ha hb
  refine ⟨ha.symm, ?_⟩
  have hi := parseDigits_showNat (max := i + j) (n := i) (by omega)
  have hj := parseDigits_showNat (max := i + j) (n := j) (by omega)
  rw [← hb] at hi
  rw [hi] at hj
  injection hj

theorem serviceName_inj {n m : Name} (h : serviceName n = serviceName m) : n = m :=
  List.append_cancel_left h

structure Inv (S : Services) : Prop where
  nodup : (S.map (·.1)).Nodup
  ports : ∀ e ∈ S, ∀ f ∈ S, ∀ p, e.2.spec.nodePort = some p → f.2.spec.nodePort = some p → e.1 = f.1
  addrs : ∀ e ∈ S, ∀ f ∈ S, ∀ a ∈ e.2.ingress, ∀ b ∈ f.2.ingress, a.host = b.host → e.1 = f.1
  brokers : ∀ e ∈ S, ∀ n, e.2.label = some n → e.1 = serviceName n ∧
    e.2.spec.selector = "fluvio-spg-".toList ++ n ∧ e.2.spec.port = publicPort
  named : ∀ e ∈ S, "fluvio-spu-".toList.isPrefixOf e.1 = true → e.2.label.isSome

theorem mem_ne {S : Services} {n : Name} {s : Service} {e : Name × Service} (h : e ∈ put S n s) :
    e = (n, s) ∨ (e ∈ S ∧ e.1 ≠ n) := by
  rw [mem_put] at h
  exact h

/-- Putting a service that takes no port and no address of others, and has the right label. -/
theorem Inv.put {S : Services} (h : Inv S) (n : Name) (s : Service)
    (hp : ∀ p, s.spec.nodePort = some p → ∀ e ∈ S, e.1 ≠ n → e.2.spec.nodePort ≠ some p)
    (ha : ∀ a ∈ s.ingress, ∀ e ∈ S, e.1 ≠ n → ∀ b ∈ e.2.ingress, b.host ≠ a.host)
    (hb : ∀ m, s.label = some m → n = serviceName m ∧ s.spec.selector = "fluvio-spg-".toList ++ m ∧
      s.spec.port = publicPort)
    (hn : "fluvio-spu-".toList.isPrefixOf n = true → s.label.isSome) : Inv (put S n s) where
  nodup := nodup_put S n s h.nodup
  ports := by
    intro e he f hf p h1 h2
    rcases mem_ne he with rfl | ⟨he, hne⟩ <;> rcases mem_ne hf with rfl | ⟨hf, hnf⟩
    · rfl
    · exact absurd h2 (hp p h1 f hf hnf)
    · exact absurd h1 (hp p h2 e he hne)
    · exact h.ports e he f hf p h1 h2
  addrs := by
    intro e he f hf a h1 b h2 hh
    rcases mem_ne he with rfl | ⟨he, hne⟩ <;> rcases mem_ne hf with rfl | ⟨hf, hnf⟩
    · rfl
    · exact absurd hh.symm (ha a h1 f hf hnf b h2)
    · exact absurd hh (ha b h2 e he hne a h1)
    · exact h.addrs e he f hf a h1 b h2 hh
  brokers := by
    intro e he m hm
    rcases mem_ne he with rfl | ⟨he, hne⟩
    · exact hb m hm
    · exact h.brokers e he m hm
  named := by
    intro e he hx
    rcases mem_ne he with rfl | ⟨he, hne⟩
    · exact hn hx
    · exact h.named e he hx

theorem free_iff {S : Services} {n : Name} {p : Nat} :
    free S n p = true ↔ ∀ e ∈ S, e.1 ≠ n → e.2.spec.nodePort ≠ some p := by
  simp only [free, List.all_eq_true, Bool.or_eq_true, decide_eq_true_eq]
  exact ⟨fun h e he hn => (h e he).resolve_left hn, fun h e he => by
    by_cases hn : e.1 = n
    · exact .inl hn
    · exact .inr (h e he hn)⟩

/-- What Kubernetes stores when it accepts a service. -/
theorem apply_some {S S' : Services} {n : Name} {s : Service} {c : Nat} (h : apply S n s c = some S') :
    ∃ s', S' = put S n s' ∧ s'.label = s.label ∧ s'.address = s.address ∧ s'.spec.selector = s.spec.selector ∧
      s'.spec.kind = s.spec.kind ∧ s'.spec.port = s.spec.port ∧
      (∀ p, s.spec.nodePort = some p → s'.spec.nodePort = some p) ∧
      (s.spec.kind = some .nodePort → ∃ p, s'.spec.nodePort = some p) ∧
      (∀ p, s'.spec.nodePort = some p → ∀ e ∈ S, e.1 ≠ n → e.2.spec.nodePort ≠ some p) ∧
      s'.ingress = status (get S n) := by
  simp only [apply] at h
  split at h
  · split at h
    · rename_i hf
      injection h with h
      rw [free_iff] at hf
      refine ⟨_, h.symm, rfl, rfl, rfl, rfl, rfl, ?_, fun _ => ⟨_, rfl⟩, ?_, rfl⟩
      · intro p hp
        simp only [nodePortOf, hp]
      · intro p hp
        injection hp with hp
        rw [← hp]
        exact hf
    · cases h
  · split at h
    · cases h
    · rename_i hk hz
      injection h with h
      have hz : s.spec.nodePort = none := by simpa using hz
      refine ⟨_, h.symm, rfl, rfl, rfl, rfl, rfl, ?_, fun hx => absurd hx hk, ?_, rfl⟩
      · intro p hp
        rw [hz] at hp
        cases hp
      · intro p hp
        rw [show _ = s.spec.nodePort from rfl, hz] at hp
        cases hp

theorem Inv.apply {S S' : Services} (h : Inv S) {n : Name} {s : Service} {c : Nat} (ha : apply S n s c = some S')
    (hb : ∀ m, s.label = some m → n = serviceName m ∧ s.spec.selector = "fluvio-spg-".toList ++ m ∧
      s.spec.port = publicPort)
    (hn : "fluvio-spu-".toList.isPrefixOf n = true → s.label.isSome) : Inv S' := by
  obtain ⟨s', rfl, h1, _, h3, _, h5, _, _, h8, h9⟩ := apply_some ha
  refine h.put n s' h8 ?_ (fun m hm => ?_) (fun hx => by rw [h1]; exact hn hx)
  · intro a hmem e he hne b hbm heq
    rw [h9] at hmem
    cases hg : get S n with
    | none => rw [hg] at hmem; cases hmem
    | some o =>
      rw [hg] at hmem
      exact hne (h.addrs e he (n, o) (get_mem hg) b hbm a hmem heq)
  · rw [h1] at hm
    rw [h3, h5]
    exact hb m hm

theorem service_port (cfg : Config) (spu : Name) (i : Nat) : (service cfg spu i).spec.port = publicPort := by
  unfold service applyService
  split <;> rfl

theorem service_selector (cfg : Config) (spu : Name) (i : Nat) :
    (service cfg spu i).spec.selector = "fluvio-spg-".toList ++ spu := by
  unfold service applyService
  split <;> rfl

theorem Inv.serve {S S' : Services} (h : Inv S) {cfg : Config} {spu : Name} {i c : Nat}
    (ha : Addresses.apply S (serviceName spu) (service cfg spu i) c = some S') : Inv S' := by
  refine h.apply ha (fun m hm => ?_) (fun _ => rfl)
  injection hm with hm
  subst hm
  exact ⟨rfl, service_selector _ _ _, service_port _ _ _⟩

theorem Inv.step {S : Services} (h : Inv S) (e : Ev) : Inv (step S e) := by
  cases e with
  | serve cfg g i c =>
    simp only [Addresses.step]
    cases ha : Addresses.apply S (serviceName (spuName g i)) (service cfg (spuName g i) i) c with
    | none => exact h
    | some S' => exact h.serve ha
  | foreign n spec c =>
    simp only [Addresses.step]
    split
    · exact h
    · rename_i hno
      simp only [Bool.or_eq_true, not_or] at hno
      cases ha : Addresses.apply S n ⟨none, none, spec, []⟩ c with
      | none => exact h
      | some S' =>
        exact h.apply ha (fun m hm => by cases hm) (fun hx => absurd hx hno.2)
  | remove n =>
    have hs : ∀ e ∈ del S n, e ∈ S := fun e he => (mem_del.mp he).1
    exact ⟨nodup_del S n h.nodup, fun e he f hf => h.ports e (hs e he) f (hs f hf),
      fun e he f hf => h.addrs e (hs e he) f (hs f hf), fun e he => h.brokers e (hs e he),
      fun e he => h.named e (hs e he)⟩
  | assign n addrs =>
    simp only [Addresses.step]
    split
    · exact h
    · rename_i s hg
      split
      · rename_i hall
        simp only [List.all_eq_true, Bool.or_eq_true, decide_eq_true_eq] at hall
        have hm := get_mem hg
        refine h.put n _ ?_ ?_ (fun m hl => h.brokers (n, s) hm m hl) (fun hx => h.named (n, s) hm hx)
        · intro p hp e he hne hq
          exact hne (h.ports e he (n, s) hm p hq hp)
        · intro a ha e he hne b hb
          exact (hall e he).resolve_left hne b hb a ha
      · exact h

theorem Inv.run : ∀ (es : List Ev) {S : Services}, Inv S → Inv (run S es)
  | [], _, h => h
  | e :: es, _, h => Inv.run es (h.step e)

theorem inv_nil : Inv [] :=
  ⟨List.nodup_nil, fun _ h => (nomatch h), fun _ h => (nomatch h), fun _ h => (nomatch h), fun _ h => (nomatch h)⟩

/-! ## The map of addresses -/

theorem get_put {V : Type} (l : List (Name × V)) (n m : Name) (v : V) :
    get (put l n v) m = if n = m then some v else get l m := by
  unfold Verif.Sc.Groups.get Verif.Sc.Groups.put
  by_cases h : n = m
  · simp [h]
  · simp only [List.find?_cons, h, decide_false, if_false]
    congr 1
    unfold del
    rw [List.find?_filter]
    congr 1
    funext x
    by_cases hx : x.1 = m
    · have : x.1 ≠ n := fun hn => h (hn ▸ hx)
      simp [hx, Ne.symm h]
    · simp [hx]

theorem spuServices_some {ipText : Name → Option Name} {S : Services} {n : Name} {i : Ingress}
    (h : get (spuServices ipText S) n = some i) :
    ∃ e ∈ S, e.2.label = some n ∧ getIngress ipText e.2 = some i := by
  unfold spuServices at h
  suffices hg : ∀ (S : Services) (m : List (Name × Ingress)),
      get (S.foldl (note ipText) m) n = some i →
      get m n = some i ∨ ∃ e ∈ S, e.2.label = some n ∧ getIngress ipText e.2 = some i by
    rcases hg S [] h with h | h
    · cases h
    · exact h
  intro S
  induction S with
  | nil => intro m h; exact .inl h
  | cons e S ih =>
    intro m h0
    rw [List.foldl_cons] at h0
    rcases ih _ h0 with h' | ⟨f, hf, h'⟩
    · replace h := h'
      cases hl : e.2.label with
      | none => simp only [note, hl] at h; exact .inl h
      | some k =>
        cases hi : getIngress ipText e.2 with
        | none => simp only [note, hl, hi] at h; exact .inl h
        | some j =>
          simp only [note, hl, hi, get_put] at h
          split at h
          · rename_i hk
            subst hk
            exact .inr ⟨e, List.mem_cons_self, hl, by rw [hi]; assumption⟩
          · exact .inl h
    · exact .inr ⟨f, List.mem_cons_of_mem _ hf, h'⟩

theorem spuServices_get {ipText : Name → Option Name} {S : Services} (h : Inv S) {e : Name × Service} (he : e ∈ S)
    {n : Name} (hl : e.2.label = some n) {i : Ingress} (hi : getIngress ipText e.2 = some i) :
    get (spuServices ipText S) n = some i := by
  cases hg : get (spuServices ipText S) n with
  | some j =>
    obtain ⟨f, hf, hfl, hfi⟩ := spuServices_some hg
    have : e = f := nodup_eq S h.nodup e f he hf (by rw [(h.brokers e he n hl).1, (h.brokers f hf n hfl).1])
    rw [this, hfi] at hi
    exact hi
  | none =>
    exfalso
    unfold spuServices at hg
    suffices hk : ∀ (S : Services) (m : List (Name × Ingress)), (e ∈ S ∨ ∃ j, get m n = some j) →
        ∃ j, get (S.foldl (note ipText) m) n = some j by
      obtain ⟨j, hj⟩ := hk S [] (.inl he)
      rw [hg] at hj
      cases hj
    intro S
    induction S with
    | nil =>
      intro m hm
      rcases hm with hm | hm
      · cases hm
      · exact hm
    | cons f S ih =>
      intro m hm
      rw [List.foldl_cons]
      apply ih
      rcases hm with hm | ⟨j, hj⟩
      · rcases List.mem_cons.mp hm with rfl | hm
        · right
          simp only [note, hl, hi, get_put, if_true]
          exact ⟨i, rfl⟩
        · exact .inl hm
      · right
        cases hl' : f.2.label with
        | none => simp only [note, hl']; exact ⟨j, hj⟩
        | some k =>
          cases hi' : getIngress ipText f.2 with
          | none => simp only [note, hl', hi']; exact ⟨j, hj⟩
          | some j' =>
            simp only [note, hl', hi', get_put]
            split
            · exact ⟨_, rfl⟩
            · exact ⟨j, hj⟩

/-! ## A pass of the controller -/

/-- The broker has its service, made with this configuration. -/
def Served (cfg : Config) (S : Services) (g : Name) (i : Nat) : Prop :=
  ∃ s, get S (serviceName (spuName g i)) = some s ∧ s.label = some (spuName g i) ∧ s.address = cfg.address ∧
    s.spec.kind = (service cfg (spuName g i) i).spec.kind ∧
    (s.spec.kind = some .nodePort → ∃ p, s.spec.nodePort = some p) ∧
    ∀ p, (service cfg (spuName g i) i).spec.nodePort = some p → s.spec.nodePort = some p

theorem served_apply {cfg : Config} {S S' : Services} {g : Name} {i c : Nat}
    (h : apply S (serviceName (spuName g i)) (service cfg (spuName g i) i) c = some S') : Served cfg S' g i := by
  obtain ⟨s', rfl, h1, h2, _, h4, _, h6, h7, _, _⟩ := apply_some h
  refine ⟨s', get_put_self _ _ _, h1, h2, h4, fun hk => h7 (by rw [← h4]; exact hk), h6⟩

theorem served_keep {cfg : Config} {S S' : Services} {g g' : Name} {i i' c : Nat}
    (h : apply S (serviceName (spuName g i)) (service cfg (spuName g i) i) c = some S')
    (hs : Served cfg S g' i') : Served cfg S' g' i' := by
  by_cases he : serviceName (spuName g i) = serviceName (spuName g' i')
  · obtain ⟨rfl, rfl⟩ := spuName_inj (serviceName_inj he)
    exact served_apply h
  · obtain ⟨s', rfl, _⟩ := apply_some h
    obtain ⟨s, hg, hr⟩ := hs
    exact ⟨s, by rw [get_put, if_neg he]; exact hg, hr⟩

theorem updateServices_served {cfg : Config} {choice : Name → Nat} : ∀ (work : List (Name × Nat)) {S S' : Services},
    updateServices cfg choice S work = (S', true) →
    (∀ g i, (g, i) ∈ work ∨ Served cfg S g i → Served cfg S' g i) ∧ (Inv S → Inv S')
  | [], S, S', h => by
    rw [updateServices] at h
    injection h with h _
    subst h
    exact ⟨fun g i hx => hx.resolve_left (fun hx => nomatch hx), id⟩
  | (g, i) :: work, S, S', h => by
    rw [updateServices] at h
    cases ha : apply S (serviceName (spuName g i)) (service cfg (spuName g i) i) (choice (spuName g i)) with
    | none => simp only [ha] at h; cases h
    | some S1 =>
      simp only [ha] at h
      obtain ⟨h1, h2⟩ := updateServices_served work h
      refine ⟨fun g' i' hx => h1 g' i' ?_, fun hi => h2 (hi.serve ha)⟩
      rcases hx with hx | hx
      · rcases List.mem_cons.mp hx with hx | hx
        · cases hx
          exact .inr (served_apply ha)
        · exact .inl hx
      · exact .inr (served_keep ha hx)

theorem updateServices_ends {cfg : Config} {choice : Name → Nat} : ∀ (work : List (Name × Nat)) (S : Services),
    (∀ g i, (g, i) ∈ work →
      (service cfg (spuName g i) i).spec.kind = some .nodePort → ∃ p, (service cfg (spuName g i) i).spec.nodePort = some p ∧
        (∀ e ∈ S, e.2.spec.nodePort = some p → e.1 = serviceName (spuName g i)) ∧
        ∀ g' i', (g', i') ∈ work → (service cfg (spuName g' i') i').spec.nodePort = some p → g' = g ∧ i' = i) →
    (∀ spu i, (service cfg spu i).spec.kind ≠ some .nodePort → (service cfg spu i).spec.nodePort = none) →
    (updateServices cfg choice S work).2 = true
  | [], S, _, _ => by rw [updateServices]
  | (g, i) :: work, S, h, hk => by
    rw [updateServices]
    have hs : ∃ S1, apply S (serviceName (spuName g i)) (service cfg (spuName g i) i) (choice (spuName g i)) = some S1 := by
      unfold apply
      dsimp only
      by_cases hn : (service cfg (spuName g i) i).spec.kind = some .nodePort
      · obtain ⟨p, hp, hf, _⟩ := h g i List.mem_cons_self hn
        rw [if_pos hn]
        simp only [nodePortOf, hp]
        rw [if_pos (free_iff.mpr fun e he hne hx => hne (hf e he hx))]
        exact ⟨_, rfl⟩
      · rw [if_neg hn, hk _ _ hn, if_neg (by simp)]
        exact ⟨_, rfl⟩
    obtain ⟨S1, ha⟩ := hs
    simp only [ha]
    refine updateServices_ends work S1 (fun g' i' hm hn => ?_) hk
    obtain ⟨p, hp, hf, hu⟩ := h g' i' (List.mem_cons_of_mem _ hm) hn
    refine ⟨p, hp, fun e he hx => ?_, fun a b hab => hu a b (List.mem_cons_of_mem _ hab)⟩
    obtain ⟨s', rfl, _, _, _, h4, _, h6, h7, _⟩ := apply_some ha
    rcases mem_ne he with rfl | ⟨he, _⟩
    · have hn' : (service cfg (spuName g i) i).spec.kind = some .nodePort := by
        have : (service cfg (spuName g i) i).spec.kind = (service cfg (spuName g' i') i').spec.kind := by
          unfold service applyService
          split <;> rfl
        rw [this]; exact hn
      obtain ⟨q, hq, _⟩ := h g i List.mem_cons_self hn'
      have := h6 q hq
      rw [hx] at this
      injection this with this
      subst this
      obtain ⟨rfl, rfl⟩ := hu g i List.mem_cons_self hq
      rfl
    · exact hf e he hx

end Verif.Sc.Addresses
