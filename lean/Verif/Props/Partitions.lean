import Verif.Client.Partitions

/-!
# C85: a consumer reads the partitions asked for
-/

namespace Verif.Props
open Verif.Client Verif.Client.Partitions

/-- **Specification.**  The partitions asked for.  With the name of a mirror: on the home cluster those of
the remote cluster of that name, on a remote cluster those of the home cluster of that name.  Otherwise the
partitions listed, or all of the topic's if none is listed. -/
def AskedFor (c : Config) (r : Replicas) (p : Nat) : Prop :=
  match c.mirror, r with
  | some m, .home remotes => remotes[p]? = some m
  | some m, .remote home n => home = m ∧ p < n
  | some _, .plain _ => False
  | none, r => if c.partitions = [] then p < r.partitions else p ∈ c.partitions

/-- **C85, selection (partial).**  The consumer opens exactly the partitions asked for, each once, if no
partition is listed twice and a mirror that is named exists and has one partition.  Missing: a mirror that
does not exist (`C85_violated_mirror`), a partition listed twice (`C85_violated_twice`). -/
theorem C85_selected_partial (c : Config) (r : Replicas)
    (hm : c.mirror = none → c.partitions.Nodup)
    (hx : ∀ m, c.mirror = some m → ∃ p, AskedFor c r p ∧ ∀ q, AskedFor c r q → q = p) :
    (selected c r).Nodup ∧ ∀ p, p ∈ selected c r ↔ AskedFor c r p := by
  cases hc : c.mirror with
  | none =>
    have hs : selected c r = if c.partitions.isEmpty then List.range r.partitions else c.partitions := by
      simp [selected, mirrorPartition, hc]
    rw [hs]
    cases hp : c.partitions with
    | nil =>
      refine ⟨by simpa using List.nodup_range, fun p => ?_⟩
      simp [AskedFor, hc, hp]
    | cons a l =>
      refine ⟨by simpa [hp] using hm hc, fun p => ?_⟩
      simp [AskedFor, hc, hp]
  | some m =>
    obtain ⟨p, h1, h2⟩ := hx m hc
    have key : mirrorPartition c r = some p := by
      cases r with
      | plain n => simp [AskedFor, hc] at h1
      | home remotes =>
        have h1' : remotes[p]? = some m := by simpa [AskedFor, hc] using h1
        have hmem : m ∈ remotes := List.mem_of_getElem? h1'
        have hf : ∃ q, remotes.findIdx? (fun x => decide (x = m)) = some q := by
          cases hq : remotes.findIdx? (fun x => decide (x = m)) with
          | some q => exact ⟨q, rfl⟩
          | none =>
            rw [List.findIdx?_eq_none_iff] at hq
            have := hq m hmem
            simp at this
        obtain ⟨q, hq⟩ := hf
        have := h2 q (by simpa [AskedFor, hc] using findIdx?_eq_getElem hq)
        subst this
        simp [mirrorPartition, hc, hq]
      | remote home n =>
        have h1' : home = m ∧ p < n := by simpa [AskedFor, hc] using h1
        have h0 : (0 : Nat) = p := h2 0 (by simp [AskedFor, hc]; exact ⟨h1'.1, by omega⟩)
        subst h0
        simp [mirrorPartition, hc, h1'.1]
        omega
    have hs : selected c r = [p] := by simp [selected, key]
    rw [hs]
    refine ⟨by simp, fun q => ?_⟩
    rw [List.mem_singleton]
    constructor
    · rintro rfl; exact h1
    · exact h2 q

example : selected ⟨some "b".toList, []⟩ (.home ["a".toList, "b".toList]) = [1]
    ∧ selected ⟨none, []⟩ (.plain 3) = [0, 1, 2] ∧ selected ⟨none, [2, 0]⟩ (.plain 3) = [2, 0] := by decide

/-- **C85, all or nothing.**  There is no consumer if and only if a partition selected cannot be opened;
otherwise it has one stream for each of them, in that order, with what that partition's stream yields. -/
theorem C85_all_or_none (c : Config) (r : Replicas) (managed : Bool)
    (env : Nat → Option (List (Item α) × Option Int)) :
    (consumer c r managed env = none ↔ ∃ p ∈ selected c r, env p = none)
    ∧ ∀ m, consumer c r managed env = some m →
      m.streams.map (·.part) = selected c r
      ∧ ∀ x ∈ m.streams, ∃ stored, env x.part = some (x.rest, stored) := by
  unfold consumer
  constructor
  · rw [← openAll_none]
    cases openAll env (selected c r) <;> simp
  · intro m h
    cases ho : openAll env (selected c r) with
    | none => rw [ho] at h; cases h
    | some xs =>
      rw [ho] at h
      injection h with h
      subst h
      obtain ⟨h1, h2⟩ := openAll_some env _ xs ho
      constructor
      · apply List.ext_getElem?
        intro i
        rw [List.getElem?_map]
        show Option.map _ xs[i]? = _
        cases hx : xs[i]? with
        | none =>
          rw [List.getElem?_eq_none_iff] at hx
          symm
          rw [Option.map_none, List.getElem?_eq_none_iff]
          omega
        | some x => rw [(h2 i x hx).1]; rfl
      · intro x hx
        obtain ⟨i, hi⟩ := List.getElem?_of_mem hx
        obtain ⟨_, stored, he, _⟩ := h2 i x hi
        exact ⟨stored, he⟩

/-- **Specification.**  What the application got of a partition. -/
def gotOf (p : Nat) (log : List (Obs α)) : List (Item α) :=
  log.filterMap (fun o => match o with
    | .got _ q it => if q = p then some it else none
    | _ => none)

/-- **Specification.**  The offsets the application got of a partition. -/
def offsetsOf (p : Nat) (log : List (Obs α)) : List Int :=
  (gotOf p log).filterMap (fun it => match it with
    | .record o _ => some o
    | .error => none)

/-- Streams of different partitions: what came from the stream is what came of the partition. -/
private theorem gotOf_eq {ps : List Nat} (hn : ps.Nodup) {i p : Nat} (hp : ps[i]? = some p) :
    ∀ (log : List (Obs α)), (∀ j q it, Obs.got j q it ∈ log → ps[j]? = some q) →
    gotOf p log = itemsOf i log
  | [], _ => rfl
  | o :: log, h => by
    have ih := gotOf_eq hn hp log fun j q it hm => h j q it (List.mem_cons_of_mem _ hm)
    unfold gotOf itemsOf at ih ⊢
    rw [List.filterMap_cons, List.filterMap_cons, ih]
    cases o with
    | got j q it =>
      have hq := h j q it (List.mem_cons_self ..)
      have : q = p ↔ j = i := by
        constructor
        · rintro rfl
          exact (List.getElem?_inj (List.getElem?_eq_some_iff.mp hq).1 hn).mp (by rw [hq, hp])
        · rintro rfl
          rw [hp] at hq
          exact (Option.some.inj hq).symm
      dsimp only
      by_cases hj : j = i
      · rw [if_pos hj, if_pos (this.mpr hj)]
      · rw [if_neg hj, if_neg (fun hh => hj (this.mp hh))]
    | _ => rfl

private theorem run_parts (c : Config) (r : Replicas) (managed : Bool)
    (env : Nat → Option (List (Item α) × Option Int)) (m : Multi α)
    (h : consumer c r managed env = some m) (es : List MEv) :
    ∀ j q it, Obs.got j q it ∈ (m.run es).2 → (selected c r)[j]? = some q := by
  intro j q it hg
  have hlen : j < m.streams.length := by
    apply Classical.byContradiction
    intro hj
    have : ∀ (es : List MEv) (m : Multi α), ¬ j < m.streams.length →
        ∀ q it, Obs.got j q it ∉ (m.run es).2 := by
      intro es
      induction es with
      | nil => intro m _ q it h; simp [Multi.run] at h
      | cons e es ih =>
        intro m hj q it h
        rcases List.mem_append.mp h with h | h
        · have hn : m.streams[j]? = none := List.getElem?_eq_none_iff.mpr (by omega)
          cases e with
          | poll k =>
            unfold Multi.step at h
            dsimp only at h
            split at h
            · cases h
            · split at h
              · cases h
              · rename_i x hx
                split at h <;> simp at h <;> (rw [h.1] at hn; rw [hn] at hx; cases hx)
          | pollNone => unfold Multi.step at h; dsimp only at h; split at h <;> simp at h
          | commit => unfold Multi.step at h; dsimp only at h; repeat' split at h
                      all_goals simp at h
          | flush => unfold Multi.step at h; dsimp only at h; repeat' split at h
                     all_goals first
                       | exact joined_got _ _ _ _ _ h
                       | simp [failed] at h
          | resume k => unfold Multi.step at h; dsimp only at h; repeat' split at h
                        all_goals first
                          | exact joined_got _ _ _ _ _ h
                          | simp [failed] at h
          | abandon => unfold Multi.step at h; dsimp only at h; split at h <;> simp at h
          | serve k w => unfold Multi.step at h; dsimp only at h; split at h <;> simp at h
        · exact ih _ (by rw [(step_effect m e).1]; exact hj) q it h
    exact this es m hj q it hg
  obtain ⟨hl, he⟩ := run_effect es m
  obtain ⟨y, hy⟩ : ∃ y, (m.run es).1.streams[j]? = some y :=
    ⟨_, List.getElem?_eq_getElem (by omega)⟩
  obtain ⟨x, hx, _, _, hp⟩ := he j y hy
  rw [hp q it hg]
  have := (C85_all_or_none c r managed env).2 m h
  rw [← this.1, List.getElem?_map, hx]
  rfl

/-- **C85, nothing else.**  Whatever the application gets is of a partition that was selected. -/
theorem C85_only_selected (c : Config) (r : Replicas) (managed : Bool)
    (env : Nat → Option (List (Item α) × Option Int)) (m : Multi α)
    (h : consumer c r managed env = some m) (es : List MEv) (j p : Nat) (it : Item α)
    (hg : Obs.got j p it ∈ (m.run es).2) : p ∈ selected c r :=
  List.mem_of_getElem? (run_parts c r managed env m h es j p it hg)

/-- **C85, every partition in full.**  In whatever order the streams have something, and whatever else
happens: what the application got of a partition is, in its order and without gaps, the beginning of what
that partition's stream yields; and once the merged stream has ended, all of it. -/
theorem C85_each (c : Config) (r : Replicas) (managed : Bool)
    (env : Nat → Option (List (Item α) × Option Int)) (m : Multi α)
    (h : consumer c r managed env = some m) (hn : (selected c r).Nodup) (es : List MEv) (p : Nat)
    (hp : p ∈ selected c r) :
    ∃ items stored, env p = some (items, stored) ∧ gotOf p (m.run es).2 <+: items
      ∧ (.ended ∈ (m.run es).2 → gotOf p (m.run es).2 = items) := by
  obtain ⟨i, hi⟩ := List.getElem?_of_mem hp
  obtain ⟨hparts, hst⟩ := (C85_all_or_none c r managed env).2 m h
  have hi' := hi
  rw [← hparts, List.getElem?_map] at hi'
  cases hx : m.streams[i]? with
  | none => rw [hx] at hi'; cases hi'
  | some x =>
    rw [hx] at hi'
    have hxp : x.part = p := Option.some.inj hi'
    obtain ⟨stored, he⟩ := hst x (List.mem_of_getElem? hx)
    rw [hxp] at he
    have hgot := gotOf_eq hn hi (m.run es).2 (run_parts c r managed env m h es)
    have gen : ∀ (fs : List MEv), ∃ y, (m.run fs).1.streams[i]? = some y
        ∧ itemsOf i (m.run fs).2 ++ y.rest = x.rest := by
      intro fs
      obtain ⟨hl, hr⟩ := run_effect fs m
      have hlt := (List.getElem?_eq_some_iff.mp hx).1
      obtain ⟨y, hy⟩ : ∃ y, (m.run fs).1.streams[i]? = some y := ⟨_, List.getElem?_eq_getElem (by omega)⟩
      obtain ⟨x', hx', _, hit, _⟩ := hr i y hy
      rw [hx] at hx'
      cases hx'
      exact ⟨y, hy, hit⟩
    refine ⟨x.rest, stored, he, ?_, ?_⟩
    · rw [hgot]
      obtain ⟨y, _, hy⟩ := gen es
      exact ⟨y.rest, hy⟩
    · intro hend
      rw [hgot]
      -- the moment at which the end was reported
      have split : ∀ (es : List MEv) (m : Multi α), .ended ∈ (m.run es).2 →
          ∃ fs gs, es = fs ++ gs ∧ ((m.run fs).1.streams.all (·.rest.isEmpty)) = true := by
        intro es
        induction es with
        | nil => intro m h; simp [Multi.run] at h
        | cons e es ih =>
          intro m h
          rcases List.mem_append.mp h with h | h
          · refine ⟨[], e :: es, rfl, ?_⟩
            cases e with
            | pollNone =>
              unfold Multi.step at h
              dsimp only at h
              split at h
              · rename_i hc; exact hc.2
              · simp at h
            | poll k => unfold Multi.step at h; dsimp only at h; repeat' split at h
                        all_goals simp at h
            | commit => unfold Multi.step at h; dsimp only at h; repeat' split at h
                        all_goals simp at h
            | flush => unfold Multi.step at h; dsimp only [joined, failed] at h; repeat' split at h
                       all_goals simp at h
            | resume k => unfold Multi.step at h; dsimp only [joined, failed] at h; repeat' split at h
                          all_goals simp at h
            | abandon => unfold Multi.step at h; dsimp only at h; split at h <;> simp at h
            | serve k w => unfold Multi.step at h; dsimp only at h; split at h <;> simp at h
          · obtain ⟨fs, gs, hfg, hall⟩ := ih _ h
            exact ⟨e :: fs, gs, by rw [hfg]; rfl, hall⟩
      obtain ⟨fs, gs, hfg, hall⟩ := split es m hend
      obtain ⟨y, hy, hit⟩ := gen fs
      have hye : y.rest = [] := by
        simpa using List.all_eq_true.mp hall y (List.mem_of_getElem? hy)
      rw [hye, List.append_nil] at hit
      obtain ⟨z, _, hz⟩ := gen es
      rw [hfg, run_append] at hz ⊢
      rw [itemsOf_append] at hz ⊢
      rw [hit] at hz ⊢
      have : itemsOf i ((m.run fs).1.run gs).2 = [] := by
        have hh : (itemsOf i ((m.run fs).1.run gs).2 ++ z.rest) = [] := by
          have := congrArg List.length hz
          simp only [List.length_append] at this
          apply List.eq_nil_of_length_eq_zero
          simp only [List.length_append]
          omega
        exact (List.append_eq_nil_iff.mp hh).1
      rw [this, List.append_nil]

/-- **C85, none is forgotten.**  A stream that has something is served by a poll, whatever the others do. -/
theorem C85_served (m : Multi α) (hf : m.flushing = false) (i : Nat) (x : Single α) (it : Item α)
    (rest : List (Item α)) (hx : m.streams[i]? = some x) (hr : x.rest = it :: rest) :
    (m.step (.poll i)).2 = [.got i x.part it] := by
  cases it <;> simp [Multi.step, hf, hx, hr]

/-- **C85, flushing.**  When `offset_flush` of the merged stream succeeds, the server holds for every
partition of which records had been got at the last successful `offset_commit` the highest of their
offsets — whatever failed or was abandoned before. -/
theorem C85_flush (c : Config) (r : Replicas) (env : Nat → Option (List (Item α) × Option Int))
    (hpos : ∀ p items stored, env p = some (items, stored) → ∀ o v, Item.record o v ∈ items → 0 ≤ o)
    (m : Multi α) (h : consumer c r true env = some m) (hn : (selected c r).Nodup)
    (es : List MEv) (e : MEv) (hok : .flush true ∈ ((m.run es).1.step e).2)
    (before after : List (Obs α)) (hlog : (m.run es).2 = before ++ .commit true :: after)
    (hlast : .commit true ∉ after) (p : Nat) (v : Int) (hv : (offsetsOf p before).max? = some v) :
    ∃ y ∈ ((m.run es).1.step e).1.streams, y.part = p ∧ y.sess.stored = some v := by
  have hrp := run_parts c r true env m h es
  have hparts := (C85_all_or_none c r true env).2 m h
  have hm : m.managed = true := by
    unfold consumer at h
    split at h
    · cases h
    · injection h with h; rw [← h]
  have hgood : AllGood (m.streams.map (·.sess.stored)) [] m := by
    unfold consumer at h
    cases ho : openAll env (selected c r) with
    | none => rw [ho] at h; cases h
    | some xs =>
      rw [ho] at h
      injection h with h
      subst h
      exact openAll_good env _ xs ho true hpos
  have hg1 := run_good _ es [] m hm hgood
  rw [List.nil_append] at hg1
  have hg2 := step_good _ _ _ hg1.2 hg1.1 e
  -- the stream of the partition
  have hmem : p ∈ selected c r := by
    have hne : gotOf p before ≠ [] := by
      intro hh
      simp [offsetsOf, hh] at hv
    obtain ⟨it, hit⟩ := List.exists_mem_of_ne_nil _ hne
    unfold gotOf at hit
    rw [List.mem_filterMap] at hit
    obtain ⟨o, ho, ho'⟩ := hit
    cases o with
    | got j q it' =>
      dsimp only at ho'
      split at ho'
      · rename_i hq
        subst hq
        exact List.mem_of_getElem? (hrp j q it' (by rw [hlog]; exact List.mem_append_left _ ho))
      · cases ho'
    | _ => cases ho'
  obtain ⟨i, hi⟩ := List.getElem?_of_mem hmem
  have hlen : i < ((m.run es).1.step e).1.streams.length := by
    rw [(step_effect _ e).1, (run_effect es m).1]
    have := congrArg List.length hparts.1
    rw [List.length_map] at this
    have := (List.getElem?_eq_some_iff.mp hi).1
    omega
  obtain ⟨y, hy⟩ : ∃ y, ((m.run es).1.step e).1.streams[i]? = some y := ⟨_, List.getElem?_eq_getElem hlen⟩
  have hyp : y.part = p := by
    obtain ⟨x1, hx1, he1⟩ := (step_effect _ e).2 i y hy
    obtain ⟨x2, hx2, hp2, _⟩ := (run_effect es m).2 i x1 hx1
    have : (m.streams.map (·.part))[i]? = some x2.part := by rw [List.getElem?_map, hx2]; rfl
    rw [hparts.1, hi] at this
    rw [he1.part, hp2, ← Option.some.inj this]
  refine ⟨y, List.mem_of_getElem? hy, hyp, ?_⟩
  have hfl := step_flushed _ _ _ hg1.2 hg1.1 e hok i y hy
  obtain ⟨init, _, hgy⟩ := hg2.1 i y hy
  -- what the application knows
  have hgot : gotOf p before = itemsOf i before :=
    gotOf_eq hn hi before fun j q it hh => hrp j q it (by rw [hlog]; exact List.mem_append_left _ hh)
  have hgiven : ∀ (log : List (Obs α)) (t : Told), (told i log t).given
      = t.given ++ (itemsOf i log).filterMap (fun it => match it with
          | .record o _ => some o | .error => none) := by
    intro log
    induction log with
    | nil => intro t; simp [told, itemsOf]
    | cons o log ih =>
      intro t
      show (told i log (toldStep i t o)).given = _
      rw [ih]
      cases o with
      | got j q it =>
        cases it with
        | record o v =>
          by_cases hj : j = i
          · simp [toldStep, itemsOf, hj]
          · simp [toldStep, itemsOf, hj]
        | error =>
          by_cases hj : j = i
          · simp [toldStep, itemsOf, hj]
          · simp [toldStep, itemsOf, hj]
      | commit b =>
        cases b with
        | true =>
          have : (toldStep i t (Obs.commit true : Obs α)).given = t.given := by
            show t.commit.given = t.given
            unfold Told.commit; split <;> rfl
          rw [this]
          simp [itemsOf]
        | false => simp [toldStep, itemsOf]
      | ended => simp [toldStep, itemsOf]
      | flush b => simp [toldStep, itemsOf]
  have hlastT : ∀ (log : List (Obs α)) (t : Told), .commit true ∉ log → (told i log t).last = t.last := by
    intro log
    induction log with
    | nil => intro t _; rfl
    | cons o log ih =>
      intro t hno
      show (told i log (toldStep i t o)).last = _
      rw [ih _ fun hh => hno (List.mem_cons_of_mem _ hh)]
      cases o with
      | got j q it =>
        cases it with
        | record o v => unfold toldStep; dsimp only; split <;> rfl
        | error => rfl
      | commit b =>
        cases b with
        | true => exact absurd (List.mem_cons_self ..) hno
        | false => rfl
      | ended => rfl
      | flush b => rfl
  have hcom : (told i ((m.run es).2 ++ ((m.run es).1.step e).2) Told.start).last = some v := by
    rw [told_append, hlog]
    have hstep : .commit true ∉ ((m.run es).1.step e).2 := by
      intro hh
      cases e with
      | commit =>
        unfold Multi.step at hok
        dsimp only at hok
        repeat' split at hok
        all_goals simp at hok
      | poll k => unfold Multi.step at hh; dsimp only at hh; repeat' split at hh
                  all_goals simp at hh
      | pollNone => unfold Multi.step at hh; dsimp only at hh; split at hh <;> simp at hh
      | flush => unfold Multi.step at hh; dsimp only [joined, failed] at hh; repeat' split at hh
                 all_goals simp at hh
      | resume k => unfold Multi.step at hh; dsimp only [joined, failed] at hh; repeat' split at hh
                    all_goals simp at hh
      | abandon => unfold Multi.step at hh; dsimp only at hh; split at hh <;> simp at hh
      | serve k w => unfold Multi.step at hh; dsimp only at hh; split at hh <;> simp at hh
    rw [hlastT _ _ hstep, told_append]
    show (told i after (toldStep i (told i before Told.start) (.commit true))).last = _
    rw [hlastT _ _ hlast]
    show (Told.commit (told i before Told.start)).last = _
    have hg := hgiven before Told.start
    have : (told i before Told.start).given.max? = some v := by
      rw [hg]
      show (([] : List Int) ++ _).max? = _
      rw [List.nil_append, ← hgot]
      exact hv
    unfold Told.commit
    rw [this]
  have hc : y.sess.loc.committed = v := by
    have := hgy.sess.com
    rw [hcom] at this
    exact this
  have hv0 : v ≠ -1 := by
    have hmemv : v ∈ (told i ((m.run es).2 ++ ((m.run es).1.step e).2) Told.start).given := by
      rw [hgiven, hlog]
      apply List.mem_append_right
      rw [itemsOf_append, itemsOf_append, List.filterMap_append, List.filterMap_append, ← hgot]
      exact List.mem_append_left _ (List.mem_append_left _ (List.max?_mem hv))
    have := hgy.sess.pos v hmemv
    omega
  rw [← hc]
  exact (hgy.flu.k1 hfl (by rw [hc]; exact hv0)).1

/-- Two partitions with two and one records; partition 1 is refused in a first flush, which leaves the
message for partition 0 without an answer, and both are stored by the second. -/
def twoPartitions (p : Nat) : Option (List (Item Char) × Option Int) :=
  if p = 0 then some ([.record 4 'a', .record 5 'b'], none)
  else if p = 1 then some ([.record 7 'x'], some 6) else none

def twoRun : List MEv :=
  [.poll 1, .poll 0, .commit, .poll 0, .flush, .serve 1 .refused, .resume 1, .pollNone,
    .flush, .serve 0 .stored, .serve 0 .stored, .serve 1 .stored, .resume 1]

example : ((consumer ⟨none, []⟩ (.plain 2) true twoPartitions).map fun m =>
      ((m.run twoRun).2, ((m.run twoRun).1.step (.resume 0)).2,
        ((m.run twoRun).1.step (.resume 0)).1.streams.map fun y => (y.part, y.sess.stored)))
    = some ([.got 1 1 (.record 7 'x'), .got 0 0 (.record 4 'a'), .commit true, .got 0 0 (.record 5 'b'),
        .flush false, .ended], [.flush true], [(0, some 4), (1, some 7)]) := by decide

/-- **C85, without a strategy** for offsets neither `offset_commit` nor `offset_flush` succeeds, and nothing
is ever stored. -/
theorem C85_unmanaged (m : Multi α) (hm : m.managed = false) (hne : m.streams ≠ [])
    (hf : m.flushing = false) :
    (m.step .commit).2 = [.commit false] ∧ (m.step .flush).2 = [.flush false]
    ∧ (m.step .commit).1 = m ∧ (m.step .flush).1 = m := by
  have : m.streams.isEmpty = false := by
    cases h : m.streams with
    | nil => exact absurd h hne
    | cons a l => rfl
  simp [Multi.step, hm, hf, this]

/-- **C85 violated: a mirror that does not exist.**  With a name that no mirror has (or for a topic that is
not mirrored at all) the consumer reads all partitions, those of all other remote clusters, instead of
failing (fluvio.rs:413-419). -/
theorem C85_violated_mirror :
    selected ⟨some "edge3".toList, []⟩ (.home ["edge1".toList, "edge2".toList]) = [0, 1]
    ∧ (∀ p, ¬ AskedFor ⟨some "edge3".toList, []⟩ (.home ["edge1".toList, "edge2".toList]) p)
    ∧ selected ⟨some "edge1".toList, []⟩ (.plain 2) = [0, 1] := by
  refine ⟨by decide, ?_, by decide⟩
  intro p h
  have h : ["edge1".toList, "edge2".toList][p]? = some "edge3".toList := h
  match p with
  | 0 => revert h; decide
  | 1 => revert h; decide
  | p + 2 => simp at h

/-- … and so it is for every name that is not found: the result is that without a name. -/
theorem C85_violated_mirror_ignored (c : Config) (r : Replicas) (m : Text) (hm : c.mirror = some m)
    (hx : ∀ p, ¬ AskedFor c r p) : selected c r = selected { c with mirror := none } r := by
  have : mirrorPartition c r = none := by
    unfold mirrorPartition
    rw [hm]
    cases r with
    | plain n => rfl
    | home remotes =>
      dsimp only
      cases hf : remotes.findIdx? (fun x => decide (x = m)) with
      | none => rfl
      | some q => exact absurd (by simpa [AskedFor, hm] using findIdx?_eq_getElem hf) (hx q)
    | remote home n =>
      dsimp only
      apply if_neg
      rintro ⟨h1, h2⟩
      exact hx 0 (by simp [AskedFor, hm, h2]; omega)
  unfold selected
  rw [this]
  rfl

/-- **C85 violated: a partition listed twice** is read twice, every record of it is got twice. -/
theorem C85_violated_twice :
    ((consumer ⟨none, [1, 1]⟩ (.plain 2) false twoPartitions).map fun m =>
      gotOf 1 (m.run [.poll 0, .poll 1]).2) = some [.record 7 'x', .record 7 'x'] := by decide

end Verif.Props
