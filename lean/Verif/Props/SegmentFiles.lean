import Verif.Storage.Files

/-!
# C103: the files of a partition are found again after a stop at any moment
-/

namespace Verif.Props

open Verif.Storage.Files

namespace C103

/-- The records written. -/
def written (evs : List (Ev α)) : List α := evs.filterMap fun e => match e with | .append r => some r | _ => none

/-- No segment has been removed. -/
def NoRemove (evs : List (Ev α)) : Prop := ∀ e ∈ evs, (match e with | .remove => False | _ => True)

/-- Segments from `b` to `e`, each beginning where the one before it ends. -/
def Follow (d : Dir α) : Int → List Int → Int → Prop
  | b, [], e => b = e
  | b, x :: xs, e => x = b ∧ Follow d (b + (d.recs x).length) xs e

/-- A number from decimal digits. -/
def value (n : Name) : Nat := n.foldl (fun v c => 10 * v + (c.toNat - 48)) 0

theorem value_fixed (w n : Nat) (h : n < 10 ^ w) : value (fixed w n) = n := by
  unfold value
  induction w generalizing n with
  | zero =>
    have : n = 0 := by simpa using h
    subst this
    rfl
  | succ w ih =>
    rw [fixed, List.foldl_append, ih (n / 10) (by rw [Nat.pow_succ] at h; omega)]
    rw [List.foldl_cons, List.foldl_nil, digit_toNat]
    omega

theorem log_eq {c : Cfg} {evs : List (Ev α)} {s : St α} (h : Run c evs s) : s.log = written evs := by
  induction h with
  | init => rfl
  | @step evs s s' e _ _ hst ih =>
    unfold written at ih ⊢
    rw [List.filterMap_append, ← ih]
    unfold step at hst
    split at hst
    all_goals (repeat' split at hst)
    all_goals first
      | (injection hst with hst; subst hst; first | rfl | exact (List.append_nil _).symm)
      | cases hst

theorem cut_eq {c : Cfg} {evs : List (Ev α)} {s : St α} (h : Run c evs s) : NoRemove evs → s.cut = 0 := by
  induction h with
  | init => exact fun _ => rfl
  | @step evs s s' e _ _ hst ih =>
    intro hn
    have h1 := ih fun x hx => hn x (List.mem_append_left _ hx)
    have h2 := hn e (List.mem_append_right _ (List.mem_singleton_self _))
    rw [← h1]
    unfold step at hst
    split at hst
    all_goals (repeat' split at hst)
    all_goals first
      | exact h2.elim
      | (injection hst with hst; subst hst; rfl)
      | cases hst

theorem follow_of {d : Dir α} : ∀ (b : Int) (segs : List (Int × List α)), (∀ p ∈ segs, d.recs p.1 = p.2) → Contig b segs →
    Follow d b (segs.map (·.1)) (b + total segs)
  | b, [], _, _ => (Int.add_zero b).symm
  | b, p :: segs, hr, hc => by
    have h1 := hr p (List.mem_cons_self ..)
    refine ⟨hc.1, ?_⟩
    rw [h1, total_cons, Int.natCast_add, ← Int.add_assoc]
    exact follow_of _ segs (fun q hq => hr q (List.mem_cons_of_mem _ hq)) hc.2

theorem flat_of {d : Dir α} (segs : List (Int × List α)) (hr : ∀ p ∈ segs, d.recs p.1 = p.2) :
    (segs.map (·.1)).flatMap d.recs = segs.flatMap (·.2) := by
  induction segs with
  | nil => rfl
  | cons p segs ih =>
    rw [List.map_cons, List.flatMap_cons, List.flatMap_cons, ih fun q hq => hr q (List.mem_cons_of_mem _ hq),
      hr p (List.mem_cons_self ..)]

/-- What is later. -/
inductive Later (c : Cfg) : St α → St α → Prop
  | refl (s : St α) : Later c s s
  | step {s s' s'' : St α} {e : Ev α} : Later c s s' → (∀ ls done, e = .load ls done → Lists s'.dir ls) →
      step c s' e = some s'' → Later c s s''

/-- Does several steps; used for examples. -/
def runAll (c : Cfg) (s : St α) : List (Ev α) → Option (St α)
  | [] => some s
  | e :: es =>
    match step c s e with
    | some s' => runAll c s' es
    | none => none

end C103

open C103

/-- The name of a file of a segment is its base offset as 20 digits, a dot, and the extension … -/
theorem C103_digits (b : Int) (ext : Name) (h0 : 0 ≤ b) (h1 : b < 2 ^ 63) :
    ∃ ds : Name, ds.length = 20 ∧ (∀ c ∈ ds, 48 ≤ c.toNat ∧ c.toNat ≤ 57) ∧ (value ds : Int) = b ∧
      fileName b ext = ds ++ [46] ++ ext := by
  refine ⟨fixed 20 b.toNat, fixed_length _ _, fixed_mem _ _, ?_, ?_⟩
  · rw [value_fixed _ _ (by omega)]
    omega
  · unfold fileName stemName
    rw [if_neg (by omega), List.append_assoc]
    rfl

/-- … from which the offset is read back, for every offset there is … -/
theorem C103_name (utf8 : Name → Bool) (hu : Ascii utf8) (b : Int) (ext : Name) (h1 : -2 ^ 63 ≤ b) (h2 : b < 2 ^ 63)
    (he : (46 : UInt8) ∉ ext) : extension (fileName b ext) = some ext ∧ offsetOf utf8 (fileName b ext) = .ok b :=
  ⟨extension_fileName b he, offsetOf_fileName hu h1 h2 he⟩

/-- … so that no two files of segments have the same name. -/
theorem C103_inj (b b' : Int) (h1 : -2 ^ 63 ≤ b) (h2 : b < 2 ^ 63) (h1' : -2 ^ 63 ≤ b') (h2' : b' < 2 ^ 63) :
    (logName b = logName b' → b = b') ∧ (idxName b = idxName b' → b = b') ∧ logName b ≠ idxName b' :=
  ⟨fileName_inj logExt_dot h1 h2 h1' h2', fileName_inj idxExt_dot h1 h2 h1' h2', log_ne_idx b b'⟩

example : Ascii (fun n => n.all fun c => decide (c.toNat < 128)) := fun n h => by
  rw [List.all_eq_true]
  intro c hc
  exact decide_eq_true (h c hc)

/-- `00000000000000000042.log` -/
example : logName 42 = "00000000000000000042.log".toUTF8.toList ∧
    fileName (-7) idxExt = "-0000000000000000007.index".toUTF8.toList := by decide +kernel

/-- In whatever order a directory is listed, and whatever directories, files with other extensions and files with names
of other lengths are in it, the segments are those whose log files are there, the last of them the one to be written. -/
theorem C103_listing (utf8 : Name → Bool) (hu : Ascii utf8) (es : List Entry) (bs : List Int)
    (hs : bs.Pairwise (· < ·)) (hb : ∀ b ∈ bs, -2 ^ 63 ≤ b ∧ b < 2 ^ 63)
    (hp : ((es.filter fun e => e.isFile && decide (extension e.name = some logExt ∧ (stem e.name).length = 20)).map (·.name)).Perm (bs.map logName)) :
    fromDir utf8 es = some (bs.dropLast, bs.getLast?) := fromDir_of hu hs hb hp

example : ((([⟨logName 7, true⟩, ⟨idxName 7, true⟩, ⟨logName 3, true⟩, ⟨logName 5, false⟩, ⟨97 :: 46 :: logExt, true⟩] : List Entry).filter
    fun e => e.isFile && decide (extension e.name = some logExt ∧ (stem e.name).length = 20)).map (·.name)).Perm ([3, 7].map logName) := by
  have h : ([⟨logName 7, true⟩, ⟨idxName 7, true⟩, ⟨logName 3, true⟩, ⟨logName 5, false⟩, ⟨97 :: 46 :: logExt, true⟩] : List Entry).filter
      (fun e => e.isFile && decide (extension e.name = some logExt ∧ (stem e.name).length = 20)) = [⟨logName 7, true⟩, ⟨logName 3, true⟩] := by
    decide +kernel
  rw [h]
  exact .swap _ _ _

/-- Whenever the broker has stopped, also between two operations of a roll over, of the removal of a segment, or of an
earlier start, it starts again, whatever the order of the listing.  The segments it finds follow each other up to the end
of what was written, and have all records that were written except those of the first segments that were being removed. -/
theorem C103_stop (c : Cfg) (hu : Ascii c.utf8) (evs : List (Ev α)) (s : St α) (h : Run c evs s) (hm : s.mem = none)
    (ls : List Name) (hl : Lists s.dir ls) (h1 : -2 ^ 63 ≤ c.base) (h2 : c.base + (written evs).length < 2 ^ 63) :
    ∃ d m k, load c s.dir ls true = some (d, some m) ∧ k ≤ (written evs).length ∧
      Follow d (c.base + k) (m.prev ++ [m.active]) m.leo ∧ m.leo = c.base + (written evs).length ∧
      (m.prev ++ [m.active]).flatMap d.recs = (written evs).drop k ∧ (NoRemove evs → k = 0) := by
  have hlog := log_eq h
  have hs : Small c s.log := ⟨h1, by rw [hlog]; exact h2⟩
  obtain ⟨segs, hd, _⟩ := inv_run hu h hs
  obtain ⟨pre, b, r, l1, _, l3⟩ := hd.load hu hs hl
  have l4 := l1.setIdx b c.cap
  have hrec : ∀ p ∈ pre ++ [(b, r)], ((s.dir.openLog b).openIndex c.cap b).recs p.1 = p.2 := fun p hp => l4.recsAt hp
  have hmap : (pre ++ [(b, r)]).map (·.1) = pre.map (·.1) ++ [b] := by rw [List.map_append]; rfl
  have ht := l4.totalEq
  have hc := l4.contig
  have hb : b = c.base + s.cut + total pre := by
    rw [contig_append] at hc
    exact hc.2.1
  have hend : b + r.length = c.base + s.cut + total (pre ++ [(b, r)]) := by
    rw [total_append, hb, total_cons]
    show _ = _ + ((total pre + (r.length + 0) : Nat) : Int)
    omega
  refine ⟨_, _, s.cut, l3, by rw [← hlog]; exact l4.cutLe, ?_, ?_, ?_, cut_eq h⟩
  · have := follow_of _ _ hrec hc
    rw [hmap, ← hend] at this
    exact this
  · dsimp only
    rw [hend, ← hlog]
    omega
  · dsimp only
    rw [← hmap, flat_of _ hrec, l4.recs, hlog]

/-- While the broker runs it has the same segments in memory. -/
theorem C103_running (c : Cfg) (hu : Ascii c.utf8) (evs : List (Ev α)) (s : St α) (h : Run c evs s) (m : Mem)
    (hm : s.mem = some m) (hr : m.roll = 0) (hn : m.removing = none) (h1 : -2 ^ 63 ≤ c.base)
    (h2 : c.base + (written evs).length < 2 ^ 63) :
    ∃ k, k ≤ (written evs).length ∧ Follow s.dir (c.base + k) (m.prev ++ [m.active]) m.leo ∧
      m.leo = c.base + (written evs).length ∧
      (m.prev ++ [m.active]).flatMap s.dir.recs = (written evs).drop k ∧ (NoRemove evs → k = 0) := by
  have hlog := log_eq h
  have hs : Small c s.log := ⟨h1, by rw [hlog]; exact h2⟩
  obtain ⟨segs, hd, hmo⟩ := inv_run hu h hs
  obtain ⟨⟨rem, pre, r, e1, e2, e3, e4, e5, e6⟩, i1, i2, i3, i4⟩ := hmo m hm
  have hrem : rem = [] := e6 fun b => by rw [hn]; exact fun hh => (nomatch hh)
  subst hrem
  rw [hr, if_neg (by decide), List.append_nil, List.nil_append] at e1
  subst e1
  have hrec : ∀ p ∈ pre ++ [(m.active, r)], s.dir.recs p.1 = p.2 := fun p hp => hd.recsAt hp
  have hmap : (pre ++ [(m.active, r)]).map (·.1) = m.prev ++ [m.active] := by rw [List.map_append, e2]; rfl
  have ht := hd.totalEq
  have hc := hd.contig
  have hb : m.active = c.base + s.cut + total pre := by
    rw [contig_append] at hc
    exact hc.2.1
  have hend : m.leo = c.base + s.cut + total (pre ++ [(m.active, r)]) := by
    rw [total_append, e3, hb, total_cons]
    show _ = _ + ((total pre + (r.length + 0) : Nat) : Int)
    omega
  refine ⟨s.cut, by rw [← hlog]; exact hd.cutLe, ?_, ?_, ?_, cut_eq h⟩
  · have := follow_of _ _ hrec hc
    rw [hmap, ← hend] at this
    exact this
  · rw [hend, ← hlog]
    omega
  · rw [← hmap, flat_of _ hrec, hd.recs, hlog]

/-- Removing takes whole segments: what is written to the active segment is never lost. -/
theorem C103_active (c : Cfg) (hu : Ascii c.utf8) (evs : List (Ev α)) (s : St α) (h : Run c evs s) (m : Mem)
    (hm : s.mem = some m) (h1 : -2 ^ 63 ≤ c.base) (h2 : c.base + (written evs).length < 2 ^ 63) :
    c.base ≤ m.active ∧ m.leo = c.base + (written evs).length ∧
      s.dir.recs m.active = (written evs).drop (m.active - c.base).toNat := by
  have hlog := log_eq h
  have hs : Small c s.log := ⟨h1, by rw [hlog]; exact h2⟩
  obtain ⟨segs, hd, hmo⟩ := inv_run hu h hs
  obtain ⟨⟨rem, pre, r, e1, e2, e3, e4, e5, e6⟩, i1, i2, i3, i4⟩ := hmo m hm
  have hmem : (m.active, r) ∈ segs := by
    rw [e1]
    exact List.mem_append_left _ (List.mem_append_right _ (List.mem_singleton_self _))
  have hrng := hd.range hmem
  have hrec := hd.recsAt hmem
  dsimp only at hrng hrec
  have htail : (if 2 ≤ m.roll then [(m.leo, ([] : List α))] else []).flatMap (·.2) = [] := by
    split <;> rfl
  have hall := hd.recs
  rw [e1, List.flatMap_append, htail, List.append_nil, List.flatMap_append, List.flatMap_singleton] at hall
  have hc := hd.contig
  rw [e1, contig_append, contig_append] at hc
  have hb : m.active = c.base + s.cut + total (rem ++ pre) := hc.1.2.1
  have hlen := congrArg List.length hall
  rw [List.length_append, List.length_drop] at hlen
  have hcl := hd.cutLe
  have ht : ((rem ++ pre).flatMap (·.2)).length = total (rem ++ pre) := rfl
  dsimp only at hlen hall
  refine ⟨by omega, ?_, ?_⟩
  · rw [e3, hb, ← hlog]
    omega
  · rw [hrec, ← hlog]
    have hk : (m.active - c.base).toNat = s.cut + total (rem ++ pre) := by omega
    rw [hk, ← List.drop_drop, ← hall, ← ht, List.drop_left]

/-! A run in which the broker is stopped within a roll over, and one in which it is stopped within a removal. -/

namespace C103

def cfg0 : Cfg := ⟨fun n => n.all fun c => decide (c.toNat < 128), 10, 0⟩
def init0 : St Nat := ⟨fun _ => none, none, [], 0⟩

def first : List (Ev Nat) := [.load [] true, .append 1, .append 2, .roll, .roll]
def second : List (Ev Nat) := first ++ [.roll, .roll, .remove, .remove]

theorem run_of (c : Cfg) : ∀ (es evs : List (Ev α)) (s s' : St α), Run c evs s → runAll c s es = some s' →
    (∀ e ∈ es, ∀ ls done, e ≠ .load ls done) → Run c (evs ++ es) s'
  | [], evs, s, s', h, hr, _ => by
    injection hr with hr
    subst hr
    rw [List.append_nil]
    exact h
  | e :: es, evs, s, s', h, hr, hn => by
    rw [runAll] at hr
    split at hr
    · rename_i s1 hs1
      have := run_of c es (evs ++ [e]) s1 s' (.step h (fun ls done he =>
        absurd he (hn e (List.mem_cons_self ..) ls done)) hs1) hr fun x hx => hn x (List.mem_cons_of_mem _ hx)
      rwa [List.append_assoc] at this
    · cases hr

end C103

namespace C103

def empty0 : Dir Nat := fun _ => none
/-- The partition after its first start. -/
def started0 : St Nat := ⟨(empty0.openLog 0).openIndex 10 0, some ⟨[], 0, 0, 0, none⟩, [], 0⟩

theorem run_started : Run cfg0 [.load [] true] started0 := by
  refine Run.step (.init : Run cfg0 ([] : List (Ev Nat)) init0) (fun ls done he => ?_) ?_
  · injection he with he _
    subst he
    exact ⟨List.nodup_nil, fun n => ⟨fun hn => (nomatch hn), fun hn => absurd rfl hn⟩⟩
  · have hl : load cfg0 init0.dir [] true =
        some ((empty0.openLog 0).openIndex 10 0, some (Mem.mk [] 0 (0 + ((empty0.openLog 0).recs 0).length) 0 none)) := by
      have hf : fromDir cfg0.utf8 (([] : List Name).map fun n => ⟨n, true⟩) = some ([], none) := by
        show Option.map _ (some ([] : List Int)) = _
        rw [Option.map_some, List.mergeSort_nil]
        rfl
      unfold load
      rw [hf]
      rfl
    have hr : (empty0.openLog 0).recs 0 = [] := by
      have h0 : empty0 (logName 0) = none := rfl
      rw [openLog_new h0]
      unfold Dir.recs
      rw [set_same]
    rw [step]
    dsimp only
    have hl' : load cfg0 (fun _ => none) [] true = _ := hl
    rw [hl', hr]
    rfl

end C103

/-- Stopped after the new log was created, before its index was. -/
example : ∃ s, Run cfg0 (first ++ [.stop]) s ∧ s.mem = none ∧ (s.dir (logName 2)).isSome = true ∧
    (s.dir (idxName 2)).isNone = true ∧ (s.dir (idxName 0)).isSome = true ∧ written (first ++ [.stop]) = [1, 2] := by
  have hsome : (runAll cfg0 started0 [.append 1, .append 2, .roll, .roll, .stop]).isSome = true := by decide +kernel
  obtain ⟨s, hs⟩ := Option.isSome_iff_exists.mp hsome
  have r2 := run_of cfg0 [.append 1, .append 2, .roll, .roll, .stop] _ _ _ run_started hs (by
    intro e he ls done
    simp only [List.mem_cons, List.not_mem_nil, or_false] at he
    rcases he with rfl | rfl | rfl | rfl | rfl <;> exact fun hh => (nomatch hh))
  have key : (runAll cfg0 started0 [.append 1, .append 2, .roll, .roll, .stop]).all (fun s => s.mem.isNone &&
      (s.dir (logName 2)).isSome && (s.dir (idxName 2)).isNone && (s.dir (idxName 0)).isSome) = true := by decide +kernel
  rw [hs, Option.all_some] at key
  simp only [Bool.and_eq_true] at key
  exact ⟨s, r2, Option.isNone_iff_eq_none.mp key.1.1.1, key.1.1.2, key.1.2, key.2, rfl⟩

/-! ## What is not as claimed -/

/-- A file whose name is not UTF-8 keeps the partition from starting: 20 bytes and `.log` are enough. -/
theorem C103_violated_panic (utf8 : Name → Bool) (es : List Entry) (e : Entry) (he : e ∈ es) (hf : e.isFile = true)
    (hx : extension e.name = some logExt) (hl : (stem e.name).length = 20) (hn : utf8 (stem e.name) = false) :
    fromDir utf8 es = none := by
  have hscan : scan utf8 es = none := by
    induction es with
    | nil => cases he
    | cons x es ih =>
      rw [scan]
      rcases List.mem_cons.mp he with rfl | he
      · have hp : offsetOf utf8 e.name = .error .panic := by
          unfold offsetOf
          rw [if_neg (fun h => h hl), hn, if_neg (by decide)]
        rw [if_pos ⟨hf, hx⟩, hp]
      · rw [ih he]
        split
        · split <;> rfl
        · rfl
  unfold fromDir
  rw [hscan]
  rfl

example : extension (List.replicate 20 255 ++ 46 :: logExt) = some logExt ∧
    (stem (List.replicate 20 255 ++ 46 :: logExt)).length = 20 := by decide +kernel

namespace C103

/-- `+0000000000000000005.log` -/
def plusName (b : Int) : Name := 43 :: fixed 19 b.toNat ++ 46 :: logExt

theorem plus_ext (b : Int) : extension (plusName b) = some logExt :=
  (extension_iff _ _).mpr ⟨43 :: fixed 19 b.toNat, List.cons_ne_nil _ _, rfl, logExt_dot⟩

theorem plus_stem (b : Int) : stem (plusName b) = 43 :: fixed 19 b.toNat := by
  unfold stem plusName
  rw [rsplitDot_of _ logExt_dot]
  dsimp only
  rw [if_neg (List.cons_ne_nil _ _)]

theorem plus_offset (utf8 : Name → Bool) (hu : Ascii utf8) (b : Int) (h0 : 0 ≤ b) (h1 : b < 2 ^ 63) :
    offsetOf utf8 (plusName b) = .ok b := by
  have hst := plus_stem b
  have hlen : (43 :: fixed 19 b.toNat : Name).length = 20 := by rw [List.length_cons, fixed_length]
  have hasc : utf8 (43 :: fixed 19 b.toNat) = true := hu _ fun c hc => by
    rcases List.mem_cons.mp hc with rfl | hc
    · decide
    · have := fixed_mem _ _ c hc
      omega
  have hp : parseI64 (43 :: fixed 19 b.toNat) = some b := by
    rw [parseI64, if_neg (by decide)]
    dsimp only
    rw [if_pos rfl, if_neg (fun he => by have := congrArg List.length he; rw [fixed_length] at this; cases this),
      parseDigits_fixed _ _ _ (by omega)]
    dsimp only
    rw [if_pos (by omega), Nat.zero_mul, Nat.zero_add, Int.toNat_of_nonneg h0]
  unfold offsetOf
  rw [hst, if_neg (fun h => h hlen), if_pos hasc, hp]

end C103

/-- A name with a sign counts as well.  Beside the segment with the same number it is a second segment with the same base
offset, and the records of the one file are read twice. -/
theorem C103_violated_plus (c : Cfg) (hu : Ascii c.utf8) (d : Dir α) (b : Int) (h0 : 0 ≤ b) (h1 : b < 2 ^ 63)
    (recs : List α) (k : Nat) (hlog : d (logName b) = some (.log recs)) (hidx : d (idxName b) = some (.index k)) :
    logName b ≠ plusName b ∧
    ∃ d' m, load c d [logName b, plusName b] true = some (d', some m) ∧ m.prev = [b] ∧ m.active = b ∧
      (m.prev ++ [m.active]).flatMap d'.recs = recs ++ recs := by
  have hne : logName b ≠ plusName b := by
    intro h
    have hs := congrArg stem h
    rw [logName, stem_fileName b logExt_dot] at hs
    rw [plus_stem] at hs
    have hm : (43 : UInt8) ∈ stemName b := by rw [hs]; exact List.mem_cons_self ..
    unfold stemName at hm
    rw [if_neg (by omega)] at hm
    exact absurd (fixed_mem _ _ _ hm).1 (by decide)
  refine ⟨hne, ?_⟩
  have hf : fromDir c.utf8 ([logName b, plusName b].map fun n => ⟨n, true⟩) = some ([b], some b) := by
    have hs : scan c.utf8 ([logName b, plusName b].map fun n => ⟨n, true⟩) = some [b, b] := by
      rw [List.map_cons, List.map_cons, List.map_nil, scan, if_pos ⟨rfl, extension_logName b⟩]
      dsimp only
      rw [logName, offsetOf_fileName hu (by omega) h1 logExt_dot, scan, if_pos ⟨rfl, plus_ext b⟩]
      dsimp only
      rw [plus_offset _ hu b h0 h1]
      rfl
    unfold fromDir
    rw [hs]
    dsimp only [Option.map_some]
    rw [List.mergeSort_of_pairwise (by
      rw [List.pairwise_cons]
      exact ⟨fun x hx => by rw [List.mem_singleton] at hx; subst hx; simp, List.pairwise_singleton _ _⟩)]
    rfl
  have ho : d.openLog b = d := openLog_old hlog
  have hread : d.readable b = true := by
    unfold Dir.readable
    rw [hlog, hidx]
    rfl
  have hrec : d.recs b = recs := by
    unfold Dir.recs
    rw [hlog]
  have hrec' : (d.openIndex c.cap b).recs b = recs := by
    unfold Dir.recs Dir.openIndex
    rw [set_ne _ _ (log_ne_idx _ _), hlog]
  refine ⟨d.openIndex c.cap b, ⟨[b], b, b + recs.length, 0, none⟩, ?_, rfl, rfl, ?_⟩
  · unfold load
    rw [hf]
    dsimp only [Option.getD_some]
    rw [if_pos (by rw [List.all_cons, hread]; rfl), if_pos rfl, ho, hrec]
  · show [b, b].flatMap _ = _
    rw [List.flatMap_cons, List.flatMap_singleton, hrec']

namespace C103

/-- The index of a segment whose log is gone, and that nobody is removing. -/
structure Left (c : Cfg) (b : Int) (s : St α) : Prop where
  lo : c.base ≤ b
  hi : b < c.base + s.cut
  there : s.dir (idxName b) ≠ none
  nobody : ∀ m, s.mem = some m → ∀ x f, m.removing = some (x, f) → x ≠ b

theorem set_there {d : Dir α} {n m : Name} {x : Content α} (h : d n ≠ none) : d.set m (some x) n ≠ none := by
  by_cases hn : n = m
  · rw [hn, set_same]
    exact fun hh => (nomatch hh)
  · rwa [set_ne _ _ hn]

theorem openLog_there {d : Dir α} {n : Name} {b : Int} (h : d n ≠ none) : d.openLog b n ≠ none := by
  cases hd : d (logName b) with
  | none => rw [openLog_new hd]; exact set_there h
  | some y => rw [openLog_old hd]; exact h

theorem left_step {c : Cfg} {b : Int} {s s' : St α} {e : Ev α} (hs : Small c s'.log)
    (hi : Inv c s) (h : step c s e = some s') (hl : Left c b s) : Left c b s' := by
  have hs0 : Small c s.log := ⟨hs.1, by have := log_mono h; have := hs.2; omega⟩
  obtain ⟨segs, hd, hmo⟩ := hi
  obtain ⟨l1, l2, l3, l4⟩ := hl
  cases e with
  | append x =>
    rw [step] at h
    cases hmem : s.mem with
    | none => rw [hmem] at h; cases h
    | some m =>
      rw [hmem] at h
      dsimp only at h
      split at h
      · injection h with h
        subst h
        refine ⟨l1, l2, set_there l3, fun m' hm' => ?_⟩
        injection hm' with hm'
        subst hm'
        exact l4 m hmem
      · cases h
  | roll =>
    rw [step] at h
    cases hmem : s.mem with
    | none => rw [hmem] at h; cases h
    | some m =>
      rw [hmem] at h
      dsimp only at h
      split at h
      · split at h
        · injection h with h
          subst h
          refine ⟨l1, l2, set_there l3, fun m' hm' => ?_⟩
          injection hm' with hm'
          subst hm'
          exact l4 m hmem
        · cases h
      · injection h with h
        subst h
        refine ⟨l1, l2, openLog_there l3, fun m' hm' => ?_⟩
        injection hm' with hm'
        subst hm'
        exact l4 m hmem
      · injection h with h
        subst h
        refine ⟨l1, l2, set_there l3, fun m' hm' => ?_⟩
        injection hm' with hm'
        subst hm'
        exact l4 m hmem
      · split at h
        · injection h with h
          subst h
          refine ⟨l1, l2, l3, fun m' hm' => ?_⟩
          injection hm' with hm'
          subst hm'
          exact l4 m hmem
        · cases h
  | remove =>
    rw [step] at h
    cases hmem : s.mem with
    | none => rw [hmem] at h; cases h
    | some m =>
      rw [hmem] at h
      dsimp only at h
      obtain ⟨⟨rem, pre, r, e1, e2, e3, e4, e5, e6⟩, i1, i2, i3, i4⟩ := hmo m hmem
      split at h
      · split at h
        · cases h
        · rename_i x rest hp
          injection h with h
          subst h
          refine ⟨l1, l2, l3, fun m' hm' y f hy => ?_⟩
          injection hm' with hm'
          subst hm'
          injection hy with hy
          injection hy with hy _
          subst hy
          rw [hp] at e2
          obtain ⟨p, hp1, hp2⟩ : ∃ p ∈ pre, p.1 = x := by
            have : x ∈ pre.map (·.1) := by rw [e2]; exact List.mem_cons_self ..
            obtain ⟨p, q1, q2⟩ := List.mem_map.mp this
            exact ⟨p, q1, q2⟩
          have := hd.range (p := p) (by
            rw [e1]
            exact List.mem_append_left _ (List.mem_append_left _ (List.mem_append_right _ hp1)))
          omega
      · rename_i x hrm
        injection h with h
        subst h
        refine ⟨l1, ?_, ?_, fun m' hm' y f hy => ?_⟩
        · dsimp only
          omega
        · dsimp only
          rw [set_ne _ _ fun he => log_ne_idx _ _ he.symm]
          exact l3
        · injection hm' with hm'
          subst hm'
          injection hy with hy
          injection hy with hy _
          subst hy
          exact l4 m hmem _ _ hrm
      · rename_i x hrm
        injection h with h
        subst h
        have hx := i4 x hrm
        have hne := l4 m hmem _ _ hrm
        obtain ⟨s1, s2⟩ := hs0
        have hc := hd.cutLe
        refine ⟨l1, l2, ?_, fun m' hm' y f hy => ?_⟩
        · dsimp only
          have hn : idxName b ≠ idxName x := fun he =>
            hne (fileName_inj idxExt_dot (by omega) (by omega) (by omega) (by omega) he).symm
          rw [set_ne _ _ hn]
          exact l3
        · injection hm' with hm'
          subst hm'
          cases hy
  | stop =>
    rw [step] at h
    injection h with h
    subst h
    exact ⟨l1, l2, l3, fun m hm => (nomatch hm)⟩
  | load ls done =>
    rw [step] at h
    split at h
    · cases h
    · split at h
      · cases h
      · rename_i d m hload
        injection h with h
        subst h
        unfold load at hload
        split at hload
        · cases hload
        · split at hload
          · dsimp only at hload
            split at hload
            · injection hload with hload
              injection hload with q1 q2
              subst q1; subst q2
              refine ⟨l1, l2, set_there (openLog_there l3), fun m' hm' y f hy => ?_⟩
              injection hm' with hm'
              subst hm'
              cases hy
            · injection hload with hload
              injection hload with q1 q2
              subst q1; subst q2
              exact ⟨l1, l2, openLog_there l3, fun m' hm' => (nomatch hm')⟩
          · cases hload

end C103

/-- A broker stopped between removing the log and the index of a segment leaves the index, and whatever happens later it
is never removed. -/
theorem C103_violated_leftover (c : Cfg) (hu : Ascii c.utf8) (evs : List (Ev α)) (s s1 s2 : St α) (h : Run c evs s) (m : Mem)
    (b : Int) (hm : s.mem = some m) (hr : m.removing = some (b, true)) (hx : s.dir (idxName b) ≠ none)
    (hst : step c s .stop = some s1) (hlt : Later c s1 s2) (h1 : -2 ^ 63 ≤ c.base)
    (h2 : c.base + s2.log.length < 2 ^ 63) : s2.dir (idxName b) ≠ none := by
  have hmono : ∀ {t : St α}, Later c s1 t → s1.log.length ≤ t.log.length := by
    intro t ht
    induction ht with
    | refl => exact Nat.le_refl _
    | step _ _ hs ih => exact Nat.le_trans ih (log_mono hs)
  have hrun : Run c (evs ++ [.stop]) s1 := .step h (fun _ _ he => (nomatch he)) hst
  have hs1 : s1 = { s with mem := none } := by
    rw [step] at hst
    injection hst with hst
    exact hst.symm
  have hsm : Small c s.log := ⟨h1, by have := hmono hlt; rw [hs1] at this; dsimp only at this; omega⟩
  obtain ⟨segs, hd, hmo⟩ := inv_run hu h hsm
  have hrm := (hmo m hm).removed b hr
  have hl1 : Left c b s1 := by
    rw [hs1]
    exact ⟨hrm.1, hrm.2, hx, fun m hm => (nomatch hm)⟩
  have key : ∀ t, Later c s1 t → c.base + t.log.length < 2 ^ 63 → (∃ evs', Run c evs' t) ∧ Left c b t := by
    intro t ht
    induction ht with
    | refl => exact fun _ => ⟨⟨_, hrun⟩, hl1⟩
    | step _ hls hs ih =>
      intro hb
      have := log_mono hs
      obtain ⟨⟨evs', hr'⟩, hl'⟩ := ih (by omega)
      exact ⟨⟨_, .step hr' hls hs⟩, left_step ⟨h1, hb⟩ (inv_run hu hr' ⟨h1, by omega⟩) hs hl'⟩
  exact (key s2 hlt h2).2.there

example : ∃ s m, Run cfg0 second s ∧ s.mem = some m ∧ m.removing = some (0, true) ∧ s.dir (idxName 0) ≠ none := by
  have hsome : (runAll cfg0 started0 [.append 1, .append 2, .roll, .roll, .roll, .roll, .remove, .remove]).isSome = true := by
    decide +kernel
  obtain ⟨s, hs⟩ := Option.isSome_iff_exists.mp hsome
  have r2 := run_of cfg0 _ _ _ _ run_started hs (by
    intro e he ls done
    simp only [List.mem_cons, List.not_mem_nil, or_false] at he
    rcases he with rfl | rfl | rfl | rfl | rfl | rfl | rfl | rfl <;> exact fun hh => (nomatch hh))
  have key : (runAll cfg0 started0 [.append 1, .append 2, .roll, .roll, .roll, .roll, .remove, .remove]).all (fun s =>
      s.mem.any (fun m => decide (m.removing = some (0, true))) && (s.dir (idxName 0)).isSome) = true := by decide +kernel
  rw [hs, Option.all_some, Bool.and_eq_true] at key
  obtain ⟨m, hm⟩ : ∃ m, s.mem = some m := by
    cases hm : s.mem with
    | none => rw [hm] at key; exact absurd key.1 (by decide)
    | some m => exact ⟨m, rfl⟩
  rw [hm, Option.any_some, decide_eq_true_eq] at key
  exact ⟨s, m, r2, hm, key.1, fun hn => by rw [hn] at key; exact absurd key.2 (by decide)⟩

end Verif.Props
