import Verif.Spec.App
import Verif.Proofs.VecLemmas
import Mathlib.Algebra.Order.Group.Defs
import Mathlib.Algebra.Order.Sub.Defs
import Mathlib.Tactic.Abel
import Mathlib.Tactic.Linarith

/-!
# C46: timers accumulate.  C50: the cache and the singleton return what was stored
-/

namespace EF

variable {K T : Type}

/-! ## C46 -/

theorem latestStart_snoc [Zero K] (cs : List (TimerCall K)) (c : TimerCall K) :
    latestStart (cs ++ [c]) = match c with | .start t => t | _ => latestStart cs := by
  unfold latestStart
  rw [List.reverse_append, List.reverse_singleton, List.singleton_append, List.findSome?_cons]
  cases c <;> rfl

theorem run_started [AddGroup K] (cs : List (TimerCall K)) :
    (cs.foldl TimerCall.run Timer.new).started = latestStart cs := by
  induction cs using List.reverseRecOn with
  | nil => rfl
  | append_singleton cs c ih =>
    rw [List.foldl_append, latestStart_snoc]
    cases c <;> first | rfl | exact ih

/-- Every history: after the last restart, or from the construction, the time of a timer is the sum over
the stops of the time since the start before it. -/
theorem C46_history [AddGroup K] (pre post : List (TimerCall K))
    (hpre : pre = [] ∨ ∃ p, pre = p ++ [.restart]) (hpost : TimerCall.restart ∉ post) :
    ((pre ++ post).foldl TimerCall.run Timer.new).time =
      ((List.range post.length).map (contribution pre post)).sum := by
  induction post using List.reverseRecOn with
  | nil =>
    rcases hpre with rfl | ⟨p, rfl⟩
    · rfl
    · rw [List.append_nil, List.foldl_append]
      rfl
  | append_singleton post c ih =>
    have ih' := ih (fun h => hpost (List.mem_append_left _ h))
    rw [← List.append_assoc, List.foldl_append, List.length_append, List.length_singleton,
      List.range_succ, List.map_append, List.sum_append]
    have hsame : (List.range post.length).map (contribution pre (post ++ [c])) =
        (List.range post.length).map (contribution pre post) := by
      apply List.map_congr_left
      intro i hi
      have hi' : i < post.length := List.mem_range.mp hi
      unfold contribution
      rw [List.getElem?_append_left hi', List.take_append_of_le_length (Nat.le_of_lt hi')]
    rw [hsame, ← ih']
    have hlast : contribution pre (post ++ [c]) post.length =
        match c with | .stop t => t - latestStart (pre ++ post) | _ => 0 := by
      unfold contribution
      rw [List.getElem?_append_right (Nat.le_refl _), Nat.sub_self,
        List.take_append_of_le_length (Nat.le_refl _), List.take_length]
      cases c <;> rfl
    rw [List.map_singleton, List.sum_singleton, hlast]
    cases c with
    | start t => simp [TimerCall.run, Timer.start, Timer.time]
    | stop t =>
      rw [← run_started]
      rfl
    | time => simp [TimerCall.run]
    | restart => exact absurd (List.mem_append_right _ (List.mem_singleton.mpr rfl)) hpost

theorem run_replicate_time [AddGroup K] (n : Nat) (t : Timer K) :
    (List.replicate n TimerCall.time).foldl TimerCall.run t = t := by
  induction n with
  | zero => rfl
  | succ n ih => rw [List.replicate_succ, List.foldl_cons]; exact ih

/-- Histories of intervals: the time is the sum of the durations of the intervals since the last restart
(or since the construction). -/
theorem C46_intervals [AddGroup K] (bs : List (TimerBlock K)) :
    ((bs.flatMap TimerBlock.calls).foldl TimerCall.run Timer.new).time =
      ((sinceRestart bs).map TimerBlock.duration).sum := by
  induction bs using List.reverseRecOn with
  | nil => rfl
  | append_singleton bs b ih =>
    rw [List.flatMap_append, List.foldl_append, List.flatMap_singleton]
    unfold sinceRestart at ih ⊢
    rw [List.reverse_append, List.reverse_singleton, List.singleton_append]
    cases b with
    | interval s e n =>
      rw [List.takeWhile_cons_of_pos rfl, List.reverse_cons, List.map_append, List.sum_append, ← ih,
        TimerBlock.calls, List.cons_append, List.foldl_cons, List.foldl_append, run_replicate_time]
      simp [TimerBlock.duration, TimerCall.run, Timer.stop, Timer.start, Timer.time]
    | restart =>
      rw [List.takeWhile_cons_of_neg (by simp [TimerBlock.isRestart])]
      rfl
    | read =>
      rw [List.takeWhile_cons_of_pos rfl, List.reverse_cons, List.map_append, List.sum_append, ← ih]
      simp [TimerBlock.duration, TimerBlock.calls, TimerCall.run]

theorem durations_le [AddCommGroup K] [LinearOrder K] [IsOrderedAddMonoid K] (bs : List (TimerBlock K))
    (lo hi : K) (hlo : lo ≤ hi) (hs : (bs.flatMap TimerBlock.readings).Pairwise (· ≤ ·))
    (hb : ∀ x ∈ bs.flatMap TimerBlock.readings, lo ≤ x ∧ x ≤ hi) :
    0 ≤ (bs.map TimerBlock.duration).sum ∧ (bs.map TimerBlock.duration).sum ≤ hi - lo := by
  induction bs generalizing lo with
  | nil => exact ⟨le_refl _, by simpa using hlo⟩
  | cons b bs ih =>
    rw [List.flatMap_cons] at hs hb
    rw [List.map_cons, List.sum_cons]
    obtain ⟨h1, h2, h3⟩ := List.pairwise_append.mp hs
    cases b with
    | interval s e n =>
      have hbs := hb s (by simp [TimerBlock.readings])
      have hbe := hb e (by simp [TimerBlock.readings])
      have hse : s ≤ e := by simpa [TimerBlock.readings] using h1
      obtain ⟨i1, i2⟩ := ih e hbe.2 h2 (fun x hx =>
        ⟨h3 e (by simp [TimerBlock.readings]) x hx, (hb x (List.mem_append_right _ hx)).2⟩)
      show 0 ≤ (e - s) + _ ∧ (e - s) + _ ≤ hi - lo
      refine ⟨add_nonneg (sub_nonneg.mpr hse) i1, ?_⟩
      calc (e - s) + (bs.map TimerBlock.duration).sum ≤ (e - lo) + (hi - e) :=
            add_le_add (sub_le_sub_left hbs.1 e) i2
        _ = hi - lo := by abel
    | restart =>
      have := ih lo hlo h2 (fun x hx => hb x (List.mem_append_right _ hx))
      simpa [TimerBlock.duration] using this
    | read =>
      have := ih lo hlo h2 (fun x hx => hb x (List.mem_append_right _ hx))
      simpa [TimerBlock.duration] using this

/-- With a clock that does not go backwards, the time of a timer used in intervals is between zero and the
time that has passed. -/
theorem C46_elapsed [AddCommGroup K] [LinearOrder K] [IsOrderedAddMonoid K]
    (bs : List (TimerBlock K)) (lo hi : K) (hlo : lo ≤ hi)
    (hs : (bs.flatMap TimerBlock.readings).Pairwise (· ≤ ·))
    (hb : ∀ x ∈ bs.flatMap TimerBlock.readings, lo ≤ x ∧ x ≤ hi) :
    0 ≤ ((bs.flatMap TimerBlock.calls).foldl TimerCall.run Timer.new).time ∧
      ((bs.flatMap TimerBlock.calls).foldl TimerCall.run Timer.new).time ≤ hi - lo := by
  rw [C46_intervals]
  have hsub : (sinceRestart bs).Sublist bs := by
    unfold sinceRestart
    have := (List.takeWhile_sublist (fun b : TimerBlock K => !b.isRestart) (l := bs.reverse)).reverse
    rwa [List.reverse_reverse] at this
  have hflat : ((sinceRestart bs).flatMap TimerBlock.readings).Sublist
      (bs.flatMap TimerBlock.readings) := hsub.flatMap _
  exact durations_le _ lo hi hlo (hs.sublist hflat) (fun x hx => hb x (hflat.mem hx))

/-- A stop returns the duration it adds. -/
theorem C46_stop_returns [AddGroup K] (cs : List (TimerCall K)) (now : K) :
    ((cs ++ [TimerCall.stop now]).foldl TimerCall.run Timer.new).time =
      (cs.foldl TimerCall.run Timer.new).time +
        ((cs.foldl TimerCall.run Timer.new).stop now).2 ∧
    ((cs.foldl TimerCall.run Timer.new).stop now).2 = now - latestStart cs := by
  rw [List.foldl_append, ← run_started]
  exact ⟨rfl, rfl⟩

/-- Outside of alternating use a timer can show more time than has passed: two stops after one start
count the first interval twice. -/
theorem C46_double_stop_actual [AddGroup K] (s e f : K) :
    (([TimerCall.start s, .stop e, .stop f].foldl TimerCall.run Timer.new).time : K) =
      (e - s) + (f - s) := by
  show (0 + (e - s) + (f - s) : K) = _
  rw [zero_add]

theorem adds_iff (name : Text) (cs : List (AppCall K)) :
    cs.any (AppCall.adds name) = true ↔ AppCall.add name ∈ cs := by
  rw [List.any_eq_true]
  constructor
  · rintro ⟨c, hc, h⟩
    cases c with
    | add n =>
      have : n = name := by simpa [AppCall.adds] using h
      exact this ▸ hc
    | on n c => simp [AppCall.adds] at h
  · intro h
    exact ⟨_, h, by simp [AppCall.adds]⟩

/-- The timers of the application do not disturb each other: the timer called `name` is what its own
calls make of a new timer, counted since it was last added. -/
theorem C46_named [AddGroup K] (ts : Timers K) (cs : List (AppCall K)) (name : Text)
    (h : ts name = none ∨ AppCall.add name ∈ cs) :
    ((cs.foldl AppCall.run ts) name).getD Timer.new =
      (ownCalls name cs).foldl TimerCall.run Timer.new := by
  suffices H : ∀ (ts : Timers K), ((cs.foldl AppCall.run ts) name).getD Timer.new =
      (ownCalls name cs).foldl TimerCall.run
        (cond (cs.any (AppCall.adds name)) Timer.new ((ts name).getD Timer.new)) by
    rw [H ts]
    cases hm : cs.any (AppCall.adds name) with
    | true => rfl
    | false =>
      rcases h with h | h
      · rw [h]; rfl
      · rw [(adds_iff name cs).mpr h] at hm
        exact Bool.noConfusion hm
  clear h ts
  induction cs with
  | nil => intro ts; simp [ownCalls]
  | cons c cs ih =>
    intro ts
    rw [List.foldl_cons, ih, List.any_cons]
    cases c with
    | add n =>
      cases hm : cs.any (AppCall.adds name) with
      | true => simp [ownCalls]
      | false =>
        by_cases hn : n = name
        · simp [ownCalls, AppCall.run, AppCall.adds, hn]
        · have hn' : ¬ name = n := fun h => hn h.symm
          simp [ownCalls, AppCall.run, AppCall.adds, hn, hn']
    | on n c =>
      cases hm : cs.any (AppCall.adds name) with
      | true => simp [ownCalls, hm]
      | false =>
        by_cases hn : n = name
        · subst hn
          simp only [ownCalls, AppCall.run, AppCall.adds, hm, and_self, if_true, List.foldl_cons,
            Bool.or_self, cond_false, Option.getD_some]
        · have hn' : ¬ name = n := fun h => hn h.symm
          simp [ownCalls, AppCall.run, AppCall.adds, hn, hn']

/-- The stages add their timer each time they run, so after several runs a stage timer shows the last run
only. -/
theorem C46_stage_actual [AddGroup K] (ts : Timers K) (before : List (AppCall K)) (name : Text)
    (s e : K) :
    (((before ++ [AppCall.add name, .on name (.start s), .on name (.stop e)]).foldl AppCall.run ts) name).map
      Timer.time = some (e - s) := by
  rw [List.foldl_append]
  simp [AppCall.run, TimerCall.run, Timer.start, Timer.stop, Timer.time, Timer.new]

/-- Two intervals of lengths 2 and 3 with a reading, a restart, and one of length 4. -/
example : ((sinceRestart [TimerBlock.interval (1 : Int) 3 1, .read, .interval 4 7 0]).map
      TimerBlock.duration).sum = 5 ∧
    ((sinceRestart [TimerBlock.interval (1 : Int) 3 1, .restart, .interval 4 8 0]).map
      TimerBlock.duration).sum = 4 ∧
    ([TimerBlock.interval (1 : Int) 3 1, .read, .interval 4 7 0].flatMap TimerBlock.readings).Pairwise
      (· ≤ ·) := by decide

/-- A history with a restart in its middle meets the hypotheses of `C46_history`. -/
example : (∃ p, [TimerCall.start (1 : Int), .stop 2, .restart] = p ++ [.restart]) ∧
    TimerCall.restart ∉ [TimerCall.start (3 : Int), .stop 5] :=
  ⟨⟨[.start 1, .stop 2], rfl⟩, by simp⟩

/-! ## C50 -/

/-- The cache after a call. -/
def CacheCall.run [Inhabited T] (c : DataCache T) : CacheCall T → DataCache T
  | .put k v => c.put k v
  | .get k => (c.get k).1
  | .ask _ => c

/-- Whatever calls were made, reading a key gives the value most recently stored under it and under no
other; a key that was never stored gives what it had before, or the default value. -/
theorem C50_cache [Inhabited T] (c : DataCache T) (calls : List (CacheCall T)) (key : Text) :
    ((calls.foldl CacheCall.run c).get key).2 =
      match lastPut key calls with
      | some v => v
      | none => (c key).getD default := by
  induction calls generalizing c with
  | nil =>
    show (c.get key).2 = (c key).getD default
    unfold DataCache.get
    cases h : c key <;> rfl
  | cons d cs ih =>
    rw [List.foldl_cons, ih (CacheCall.run c d)]
    cases hl : lastPut key cs with
    | some v => simp only [lastPut, hl]
    | none =>
      cases d with
      | put k v =>
        simp only [lastPut, hl, CacheCall.run, DataCache.put]
        by_cases hk : k = key
        · simp [hk]
        · have : ¬ key = k := fun h => hk h.symm
          simp [hk, this]
      | get k =>
        simp only [lastPut, hl, CacheCall.run, DataCache.get]
        cases hk : c k with
        | some v => rfl
        | none =>
          by_cases h : key = k
          · subst h
            simp [DataCache.put, hk]
          · simp [DataCache.put, h]
      | ask k => simp only [lastPut, hl, CacheCall.run]

/-- `contains` says yes exactly for the keys that were there, were stored or were read. -/
theorem C50_contains [Inhabited T] (c : DataCache T) (calls : List (CacheCall T)) (key : Text) :
    ((calls.foldl CacheCall.run c).contains key = true) ↔
      (c key).isSome = true ∨ (∃ v, CacheCall.put key v ∈ calls) ∨ CacheCall.get key ∈ calls := by
  induction calls generalizing c with
  | nil => simp [DataCache.contains]
  | cons d cs ih =>
    rw [List.foldl_cons, ih (CacheCall.run c d)]
    cases d with
    | put k v =>
      by_cases hk : key = k
      · subst hk
        simp [CacheCall.run, DataCache.put]
      · simp [CacheCall.run, DataCache.put, hk]
    | get k =>
      by_cases hk : key = k
      · subst hk
        simp only [CacheCall.run, DataCache.get]
        cases h : c key <;> simp [DataCache.put, h]
      · simp only [CacheCall.run, DataCache.get]
        cases h : c k <;> simp [DataCache.put, hk]
    | ask k => simp [CacheCall.run]

/-- Nothing but a construction or the end of the registered application changes which one is
registered. -/
theorem life_after (cs : List LifeCall) (s : Singleton) (i : Nat) (hp : s.pointer = some i)
    (hi : i < s.count) (hd : s.dead i = false)
    (hc : LifeCall.construct ∉ cs) (hk : LifeCall.destroy i ∉ cs) :
    ∃ s', cs.foldlM LifeCall.run s = .ok s' ∧ s'.pointer = some i ∧ s'.dead i = false := by
  induction cs generalizing s with
  | nil => exact ⟨s, rfl, hp, hd⟩
  | cons c cs ih =>
    have hc' : LifeCall.construct ∉ cs := fun h => hc (List.mem_cons_of_mem _ h)
    have hk' : LifeCall.destroy i ∉ cs := fun h => hk (List.mem_cons_of_mem _ h)
    cases c with
    | construct => exact absurd (List.mem_cons_self ..) hc
    | constructDefault => exact ih s.constructDefault hp (Nat.lt_succ_of_lt hi) hd hc' hk'
    | destroy j =>
      have hj : i ≠ j := fun h => hk (h ▸ List.mem_cons_self ..)
      refine ih (s.destroy j) hp hi ?_ hc' hk'
      show (if i = j then true else s.dead i) = false
      rw [if_neg hj, hd]
    | get =>
      have hg : LifeCall.run s .get = .ok s := by
        show (s.getInstance >>= fun r => pure r.1) = _
        unfold Singleton.getInstance
        rw [hp]
        simp only [hd]
        rfl
      rw [List.foldlM_cons, hg]
      exact ih s hp hi hd hc' hk'

/-- As long as the latest application constructed with the arguments of the program is alive, that is the
one `getInstance` returns.  Missing from C50: applications made by the default constructor
(`C50_default_wrong`), and what happens after the application is destroyed (`C50_destroyed_wrong`). -/
theorem C50_instance_partial (s : Singleton) (hfresh : ∀ j, s.count ≤ j → s.dead j = false)
    (cs : List LifeCall) (hc : LifeCall.construct ∉ cs) (hk : LifeCall.destroy s.count ∉ cs) :
    ∃ s', (LifeCall.construct :: cs).foldlM LifeCall.run s = .ok s' ∧
      s'.getInstance = .ok (s', s.count) := by
  obtain ⟨s', h1, h2, h3⟩ := life_after cs s.construct s.count rfl (Nat.lt_succ_self _)
    (hfresh _ (Nat.le_refl _)) hc hk
  refine ⟨s', h1, ?_⟩
  unfold Singleton.getInstance
  rw [h2]
  simp only [h3]
  rfl

/-- Without any constructed application `getInstance` makes one, and returns the same one from then on. -/
theorem C50_lazy (s : Singleton) (hp : s.pointer = none) (hfresh : ∀ j, s.count ≤ j → s.dead j = false)
    (cs : List LifeCall) (hc : LifeCall.construct ∉ cs) (hk : LifeCall.destroy s.count ∉ cs) :
    ∃ s', (LifeCall.get :: cs).foldlM LifeCall.run s = .ok s' ∧
      s'.getInstance = .ok (s', s.count) := by
  have hg : LifeCall.run s .get = .ok { s.constructDefault with pointer := some s.count } := by
    show (s.getInstance >>= fun r => pure r.1) = _
    unfold Singleton.getInstance
    rw [hp]
    rfl
  obtain ⟨s', h1, h2, h3⟩ := life_after cs { s.constructDefault with pointer := some s.count } s.count rfl
    (Nat.lt_succ_self _) (hfresh _ (Nat.le_refl _)) hc hk
  refine ⟨s', ?_, ?_⟩
  · rw [List.foldlM_cons, hg]
    exact h1
  · unfold Singleton.getInstance
    rw [h2]
    simp only [h3]
    rfl

/-- An application made by the default constructor is not the one `getInstance` returns, although it is
the latest. -/
theorem C50_default_wrong :
    ∃ s, [LifeCall.construct, .constructDefault].foldlM LifeCall.run Singleton.init = .ok s ∧
      s.count = 2 ∧ s.getInstance = .ok (s, 0) := by
  refine ⟨_, rfl, rfl, rfl⟩

/-- After the registered application is destroyed, `getInstance` hands out the destroyed object, for every
history before and as long as no other application is constructed. -/
theorem C50_destroyed_wrong (s : Singleton) (i : Nat) (hp : s.pointer = some i) :
    (s.destroy i).getInstance = .ub := by
  unfold Singleton.getInstance Singleton.destroy
  rw [hp]
  simp

example : ∃ s, [LifeCall.construct, .get, .constructDefault, .destroy 1, .get].foldlM LifeCall.run
    Singleton.init = .ok s ∧ s.getInstance = .ok (s, 0) :=
  C50_instance_partial Singleton.init (fun _ _ => rfl) [.get, .constructDefault, .destroy 1, .get]
    (by simp) (by simp [Singleton.init])

end EF
