import Verif.Lemmas.PyPrefs
import Mathlib.Tactic.NormNum

/-!
# C123: preferences and requests as agents written in Python see them
-/

namespace Cyclus.PyPrefs.Props

open Cyclus.PyPrefs Cyclus.PyPrefs.Spec

/-- What an agent written in Python returns takes effect: the trades it names have the values it
gives, all others keep theirs. -/
theorem C123_effect {time : ℤ} {ptr : ℕ} {s : St Dict} {m : Map} (hm : Proper m)
    {f : Dict → Dict × Dict} {d : Dict} (hd : (adjust time ptr s m (.py f)).1 = some d)
    (hu : ((f d).2.map fun e => (e.1.1.ptr, e.1.2.ptr)).Nodup) :
    Updated m (f d).2 (adjust time ptr s m (.py f)).2.2 ∧
      Proper (adjust time ptr s m (.py f)).2.2 := by
  simp only [adjust, Option.some.injEq] at hd
  subst hd
  exact ⟨assignAll_updated hm hu, assignAll_proper hm⟩

/-- An agent that doubles every preference. -/
def double : Agent := .py fun d => (d, d.map fun e => (e.1, 2 * e.2))

/-- An agent that leaves everything as it is. -/
def idle : Agent := .py fun d => (d, [])

/-- Two bids for one request. -/
def two : Map := [(10, [(20, 1), (21, 3)])]

/-- The cache at the start. -/
def start : St Dict := ⟨-1410065407, 0, [], 0⟩

theorem two_proper : Proper two := by
  unfold Proper two; decide +kernel

example : (adjust 0 5 start two double).2.2 = [(10, [(20, 2), (21, 6)])] := by
  decide +kernel

/-- The first agent written in Python sees the preferences as they are. -/
theorem C123_first {time : ℤ} {ptr : ℕ} {s : St Dict} {m : Map} (hm : Proper m)
    (hs : ¬ (time = s.time ∧ ptr = s.ptr)) (f : Dict → Dict × Dict) :
    ∃ d, (adjust time ptr s m (.py f)).1 = some d ∧ Shows d m := by
  refine ⟨_, rfl, ?_⟩
  simp only [fetch, if_neg hs]
  exact shows_mapToPy _ hm

example : ∃ d, (adjust 0 5 start two double).1 = some d ∧ Shows d two :=
  C123_first two_proper (by simp [start]) _

/-! ## Chains -/

theorem distinct_of_keys {d u : Dict} (h : (d.map fun e => (e.1.1.ptr, e.1.2.ptr)).Nodup)
    (hn : (keys u).Nodup) (hk : ∀ k ∈ keys u, k ∈ keys d) :
    (u.map fun e => (e.1.1.ptr, e.1.2.ptr)).Nodup := by
  rw [show (u.map fun e => (e.1.1.ptr, e.1.2.ptr)) = (keys u).map fun k => (k.1.ptr, k.2.ptr) by
    simp [keys]]
  rw [show (d.map fun e => (e.1.1.ptr, e.1.2.ptr)) = (keys d).map fun k => (k.1.ptr, k.2.ptr) by
    simp [keys]] at h
  refine List.Nodup.map_on ?_ hn
  intro a ha b hb hab
  exact List.inj_on_of_nodup_map h (hk a ha) (hk b hb) hab

theorem shows_keys {d : Dict} {m : Map} (h : Shows d m) : (keys d).Nodup := by
  have h1 := h.1
  rw [show (d.map fun e => (e.1.1.ptr, e.1.2.ptr)) = (keys d).map fun k => (k.1.ptr, k.2.ptr) by
    simp [keys]] at h1
  exact List.Nodup.of_map _ h1

/-- The cache, if it is for this map, shows it. -/
def Good (time : ℤ) (ptr : ℕ) (s : St Dict) (m : Map) : Prop :=
  time = s.time ∧ ptr = s.ptr → Shows s.dict m

theorem fetch_shows {time : ℤ} {ptr : ℕ} {s : St Dict} {m : Map} (hm : Proper m)
    (hg : Good time ptr s m) : Shows (fetch mapToPy mapWraps time ptr m s).dict m ∧
      (fetch mapToPy mapWraps time ptr m s).time = time ∧
      (fetch mapToPy mapWraps time ptr m s).ptr = ptr := by
  unfold fetch
  split_ifs with h
  · exact ⟨hg h, h.1.symm, h.2.symm⟩
  · exact ⟨shows_mapToPy _ hm, rfl, rfl⟩

theorem py_step {time : ℤ} {ptr : ℕ} {s : St Dict} {m : Map} (hm : Proper m)
    (hg : Good time ptr s m) {f : Dict → Dict × Dict} (hf : Orderly (.py f)) :
    ∃ d, (adjust time ptr s m (.py f)).1 = some d ∧ Shows d m ∧
      Updated m (f d).2 (adjust time ptr s m (.py f)).2.2 ∧
      Proper (adjust time ptr s m (.py f)).2.2 ∧
      Good time ptr (adjust time ptr s m (.py f)).2.1 (adjust time ptr s m (.py f)).2.2 ∧
      (adjust time ptr s m (.py f)).2.1.time = time ∧
      (adjust time ptr s m (.py f)).2.1.ptr = ptr := by
  obtain ⟨h1, h2, h3⟩ := fetch_shows hm hg
  refine ⟨_, rfl, h1, ?_⟩
  obtain ⟨f1, f2, f3⟩ := hf (fetch mapToPy mapWraps time ptr m s).dict (shows_keys h1)
  obtain ⟨e1, e2⟩ := C123_effect (time := time) (ptr := ptr) (s := s) hm (f := f) rfl
    (distinct_of_keys h1.1 f2 f3)
  refine ⟨e1, e2, ?_, h2, h3⟩
  intro _
  simp only [adjust, f1]
  exact shows_updateAll hm h1 f3

theorem chain_orderly {time : ℤ} {ptr : ℕ} : ∀ {l : List Agent} {s : St Dict} {m : Map},
    (∀ a ∈ l, Orderly a) → Proper m → Good time ptr s m →
    (∀ p ∈ (chain time ptr l s m).1, Shows p.1 p.2) ∧ Adjusted l m (chain time ptr l s m).2.2 ∧
    ((chain time ptr l s m).2.1 = s ∨
      ((chain time ptr l s m).2.1.time = time ∧ (chain time ptr l s m).2.1.ptr = ptr))
  | [], s, m, _, _, _ => ⟨by simp [chain], .nil m, Or.inl rfl⟩
  | .cpp f :: l, s, m, ho, hm, hg => by
    have hf : f m = m := ho _ List.mem_cons_self m
    obtain ⟨h1, h2, h3⟩ := chain_orderly (time := time) (ptr := ptr) (s := s)
      (fun a ha => ho a (List.mem_cons_of_mem _ ha)) hm hg
    have hc : chain time ptr (.cpp f :: l) s m = chain time ptr l s m := by
      simp only [chain, adjust, hf, List.nil_append]
    rw [hc]
    exact ⟨h1, .cpp (by rw [hf]; exact h2), h3⟩
  | .py f :: l, s, m, ho, hm, hg => by
    obtain ⟨d, e1, e2, e3, e4, e5, e6, e7⟩ := py_step hm hg (ho (.py f) List.mem_cons_self)
    obtain ⟨h1, h2, h3⟩ := chain_orderly (time := time) (ptr := ptr)
      (fun a ha => ho a (List.mem_cons_of_mem _ ha)) e4 e5
    refine ⟨?_, ?_, ?_⟩
    · intro p hp
      rw [chain] at hp
      simp only [e1, List.cons_append, List.nil_append, List.mem_cons] at hp
      rcases hp with rfl | hp
      · exact e2
      · exact h1 p hp
    · rw [chain]
      exact .py e2 e3 h2
    · rw [chain]
      refine Or.inr ?_
      rcases h3 with h3 | h3
      · simp only [h3]; exact ⟨e6, e7⟩
      · exact h3

/-- Every agent in a chain that is written in Python sees the preferences as they are at that time,
and the preferences in the end are what the agents make of them one after the other. -/
theorem C123_chain {time : ℤ} {ptr : ℕ} {l : List Agent} (h : Fine l) : ∀ {s : St Dict} {m : Map},
    Proper m → ¬ (time = s.time ∧ ptr = s.ptr) →
    (∀ p ∈ (chain time ptr l s m).1, Shows p.1 p.2) ∧ Adjusted l m (chain time ptr l s m).2.2 ∧
    ((chain time ptr l s m).2.1 = s ∨
      ((chain time ptr l s m).2.1.time = time ∧ (chain time ptr l s m).2.1.ptr = ptr)) := by
  induction h with
  | nil => exact fun _ _ => ⟨by simp [chain], .nil _, Or.inl rfl⟩
  | @cpp f l hf _ ih =>
    intro s m hm hs
    obtain ⟨h1, h2, h3⟩ := ih (hf m hm) hs
    have hc : chain time ptr (.cpp f :: l) s m = chain time ptr l s (f m) := by
      simp only [chain, adjust, List.nil_append]
    rw [hc]
    exact ⟨h1, .cpp h2, h3⟩
  | @py f l hf hl =>
    intro s m hm hs
    refine chain_orderly ?_ hm fun h => absurd h hs
    intro a ha
    rcases List.mem_cons.1 ha with rfl | ha
    · exact hf
    · exact hl a ha

theorem double_orderly : Orderly double := by
  intro d hd
  have hk : keys (d.map fun e => (e.1, 2 * e.2)) = keys d := by simp [keys]
  refine ⟨rfl, ?_, ?_⟩
  · simp only [hk]; exact hd
  · intro k h
    simpa only [hk] using h

/-- An agent written in C++ that sets a preference. -/
def setFive : Agent := .cpp fun m => assign m 10 20 5

/-- A facility written in C++, its institution and its region written in Python. -/
theorem fine_chain : Fine [setFive, double, double] :=
  .cpp (fun _ h => assign_proper h _ _ _) (.py double_orderly fun a ha => by
    rw [List.mem_singleton] at ha
    rw [ha]
    exact double_orderly)

example : (∀ p ∈ (chain 0 5 [setFive, double, double] start two).1, Shows p.1 p.2) ∧
    Adjusted [setFive, double, double] two (chain 0 5 [setFive, double, double] start two).2.2 :=
  have h := C123_chain fine_chain two_proper (s := start) (by simp [start])
  ⟨h.1, h.2.1⟩

example : (chain 0 5 [setFive, double, double] start two).2.2 = [(10, [(20, 20), (21, 12)])] := by
  decide +kernel

/-- Over a whole simulation: no two traders have their preferences at the same address in the same
time step, so that every agent written in Python sees the preferences as they are, and the
preferences in the end are what the agents make of them one after the other. -/
theorem C123_all : ∀ {l : List Job} {s : St Dict},
    l.Pairwise (fun j j' => ¬ (j.time = j'.time ∧ j.ptr = j'.ptr)) →
    (∀ j ∈ l, ¬ (j.time = s.time ∧ j.ptr = s.ptr)) → (∀ j ∈ l, Fine j.agents ∧ Proper j.map) →
    (∀ p ∈ (jobs l s).1, Shows p.1 p.2) ∧
    List.Forall₂ (fun j m' => Adjusted j.agents j.map m') l (jobs l s).2
  | [], s, _, _, _ => ⟨by simp [jobs], .nil⟩
  | j :: l, s, hp, hs, hf => by
    rw [List.pairwise_cons] at hp
    obtain ⟨f1, f2⟩ := hf j List.mem_cons_self
    obtain ⟨h1, h2, h3⟩ := C123_chain f1 f2 (hs j List.mem_cons_self)
    have hs' : ∀ j' ∈ l, ¬ (j'.time = (chain j.time j.ptr j.agents s j.map).2.1.time ∧
        j'.ptr = (chain j.time j.ptr j.agents s j.map).2.1.ptr) := by
      intro j' hj'
      rcases h3 with h3 | h3
      · rw [h3]; exact hs j' (List.mem_cons_of_mem _ hj')
      · rw [h3.1, h3.2]
        exact fun hh => hp.1 j' hj' ⟨hh.1.symm, hh.2.symm⟩
    obtain ⟨a1, a2⟩ := C123_all hp.2 hs' fun j' hj' => hf j' (List.mem_cons_of_mem _ hj')
    refine ⟨?_, .cons h2 a2⟩
    intro p hp
    simp only [jobs, List.mem_append] at hp
    rcases hp with hp | hp
    · exact h1 p hp
    · exact a1 p hp

/-- Two traders in one time step, and one of them in the next. -/
def threeJobs : List Job :=
  [⟨0, 5, [setFive, double, double], two⟩, ⟨0, 6, [double], two⟩, ⟨1, 6, [double], []⟩]

example : (∀ p ∈ (jobs threeJobs start).1, Shows p.1 p.2) ∧
    List.Forall₂ (fun j m' => Adjusted j.agents j.map m') threeJobs (jobs threeJobs start).2 := by
  have hd : Fine [double] := .py double_orderly (by simp)
  refine C123_all (by unfold threeJobs; decide +kernel) (by simp [threeJobs, start]) ?_
  intro j hj
  simp only [threeJobs, List.mem_cons, List.not_mem_nil, or_false] at hj
  rcases hj with rfl | rfl | rfl
  · exact ⟨fine_chain, two_proper⟩
  · exact ⟨hd, two_proper⟩
  · exact ⟨hd, by simp [Proper]⟩

example : (jobs threeJobs start).1.length = 4 := by decide +kernel

/-! ## What fails -/

/-- Agents written in Python should see the preferences as they are, whatever agents written in C++
did before them. -/
def C123_statement : Prop :=
  ∀ (time : ℤ) (ptr : ℕ) (l : List Agent) (s : St Dict) (m : Map), Proper m →
    ¬ (time = s.time ∧ ptr = s.ptr) →
    (∀ a ∈ l, Orderly a ∨ ∃ f, a = .cpp f ∧ ∀ m, Proper m → Proper (f m)) →
    ∀ p ∈ (chain time ptr l s m).1, Shows p.1 p.2

/-- A facility and a region written in Python, and between them an institution written in C++ that
sets a preference to 5: the region doubles the 1 that the facility saw, so that the preference is 2
and not 10 (`agents.pyx:143-144`). -/
theorem C123_fails_cpp_value :
    (chain 0 5 [idle, setFive, double] start two).2.2 = [(10, [(20, 2), (21, 6)])] := by
  decide +kernel

theorem idle_orderly : Orderly idle := fun d _ => ⟨rfl, by simp [keys], by simp [keys]⟩

/-- The intended property fails. -/
theorem C123_fails_cpp : ¬ C123_statement := by
  intro h
  have hs := h 0 5 [idle, setFive, double] start two two_proper (by simp [start]) (by
    intro a ha
    simp only [List.mem_cons, List.not_mem_nil, or_false] at ha
    rcases ha with rfl | rfl | rfl
    · exact Or.inl idle_orderly
    · exact Or.inr ⟨_, rfl, fun _ hm => assign_proper hm _ _ _⟩
    · exact Or.inl double_orderly)
    (mapToPy 0 two, [(10, [(20, 5), (21, 3)])])
    (by rw [show (chain 0 5 [idle, setFive, double] start two).1 =
      [(mapToPy 0 two, two), (mapToPy 0 two, [(10, [(20, 5), (21, 3)])])] by decide +kernel]; simp)
  obtain ⟨e, he, h1, h2, h3⟩ := (hs.2 10 20 5).1 ⟨[(20, 5), (21, 3)], by simp, by simp⟩
  have : ∀ e ∈ mapToPy 0 two, ¬ (e.1.1.ptr = 10 ∧ e.1.2.ptr = 20 ∧ e.2 = 5) := by decide +kernel
  exact this e he ⟨h1, h2, h3⟩

/-- An agent that makes its own wrappers for the trade, for instance with `bid.request`. -/
def rewrap : Agent := .py fun d => (d, [((⟨100, 10⟩, ⟨101, 20⟩), 7)])

/-- It changes the preference, but the next agent sees the trade twice, with the old and the new
value, because wrappers of one pointer are not equal (`gentypesystem.py:2141-2142`). -/
theorem C123_fails_wrappers :
    (chain 0 5 [rewrap] start two).2.2 = [(10, [(20, 7), (21, 3)])] ∧
    (adjust 0 5 (chain 0 5 [rewrap] start two).2.1 (chain 0 5 [rewrap] start two).2.2 idle).1 =
      some [((⟨0, 10⟩, ⟨1, 20⟩), 1), ((⟨0, 10⟩, ⟨2, 21⟩), 3), ((⟨100, 10⟩, ⟨101, 20⟩), 7)] := by
  decide +kernel

/-- An agent that changes the dict and returns nothing. -/
def inPlace (f : Dict → Dict) : Agent := .py fun d => (f d, [])

/-- Changes to the dict have no effect on the preferences, and later agents see them
(`agents.pyx:151-153`). -/
theorem C123_fails_inplace {time : ℤ} {ptr : ℕ} {s : St Dict} {m : Map}
    (f : Dict → Dict) (hs : ¬ (time = s.time ∧ ptr = s.ptr)) :
    (chain time ptr [inPlace f, idle] s m).2.2 = m ∧
    (chain time ptr [inPlace f, idle] s m).1 =
      [(mapToPy s.next m, m), (f (mapToPy s.next m), m)] := by
  simp [chain, adjust, inPlace, idle, fetch, hs, updateAll, assignAll]

example : ¬ ((0 : ℤ) = start.time ∧ 5 = start.ptr) := by simp [start]

/-- A map at the address of an earlier one at the same time, as in a second simulation in one
process, is not looked at: the agent sees the preferences of the earlier one and its updates are
written into the later one. -/
theorem C123_fails_reuse {time : ℤ} {ptr : ℕ} {s : St Dict} {m m' : Map} {f : Dict → Dict × Dict}
    (hf : Orderly (.py f)) (hm : Proper m) (hs : ¬ (time = s.time ∧ ptr = s.ptr)) :
    ∃ d, (chain time ptr [idle] s m).2.1.dict = d ∧ Shows d m ∧
      adjust time ptr (chain time ptr [idle] s m).2.1 m' (.py f) =
        (some d, { (chain time ptr [idle] s m).2.1 with dict := updateAll d (f d).2 },
          assignAll m' (f d).2) := by
  refine ⟨_, rfl, ?_, ?_⟩
  · simp only [chain, adjust, idle, fetch, if_neg hs, updateAll, List.foldl_nil]
    exact shows_mapToPy _ hm
  · simp only [chain, adjust, idle, fetch, if_neg hs, updateAll, List.foldl_nil, and_self, if_true]
    rw [(hf _ (shows_keys (shows_mapToPy s.next hm))).1]

example : Orderly double ∧ Proper two ∧ ¬ ((0 : ℤ) = start.time ∧ 5 = start.ptr) :=
  ⟨double_orderly, two_proper, by simp [start]⟩

/-! ## Requests -/

theorem wrapAll_ptrs : ∀ (n : ℕ) (l : List ℕ), (wrapAll n l).map Wrap.ptr = l
  | _, [] => rfl
  | n, r :: l => by simp [wrapAll, wrapAll_ptrs (n + 1) l]

theorem commodsToPy_shows : ∀ (n : ℕ) (m : Commods), ShowsRequests (commodsToPy n m) m
  | _, [] => rfl
  | n, (c, rs) :: m => by
    have := commodsToPy_shows (n + rs.length) m
    simp only [ShowsRequests, commodsToPy, List.map_cons, wrapAll_ptrs] at this ⊢
    rw [this]

/-- Every bidder written in Python sees all requests for each commodity, provided that a map of
requests does not change between the first and the last of them in a time step, and that different
maps have different addresses or times. -/
theorem C123_requests : ∀ {l : List (ℤ × ℕ × Commods)} {s : St ReqDict},
    (∀ a ∈ l, ∀ b ∈ l, a.1 = b.1 → a.2.1 = b.2.1 → a.2.2 = b.2.2) →
    (∀ a ∈ l, a.1 = s.time → a.2.1 = s.ptr → ShowsRequests s.dict a.2.2) →
    (bidders l s).map Prod.snd = l.map (fun a => a.2.2) ∧
    ∀ p ∈ bidders l s, ShowsRequests p.1 p.2
  | [], s, _, _ => by simp [bidders]
  | (t, p, m) :: l, s, hl, hs => by
    have hd : ShowsRequests (fetch commodsToPy commodWraps t p m s).dict m ∧
        (fetch commodsToPy commodWraps t p m s).time = t ∧
        (fetch commodsToPy commodWraps t p m s).ptr = p := by
      unfold fetch
      split_ifs with h
      · exact ⟨hs _ List.mem_cons_self h.1 h.2, h.1.symm, h.2.symm⟩
      · exact ⟨commodsToPy_shows _ _, rfl, rfl⟩
    obtain ⟨h1, h2⟩ := C123_requests (l := l) (s := fetch commodsToPy commodWraps t p m s)
      (fun a ha b hb => hl a (List.mem_cons_of_mem _ ha) b (List.mem_cons_of_mem _ hb))
      (by
        intro a ha e1 e2
        rw [hd.2.1] at e1
        rw [hd.2.2] at e2
        rw [← hl (t, p, m) List.mem_cons_self a (List.mem_cons_of_mem _ ha) e1.symm e2.symm]
        exact hd.1)
    constructor
    · simp only [bidders, List.map_cons, h1]
    · intro q hq
      simp only [bidders, List.mem_cons] at hq
      rcases hq with rfl | hq
      · exact hd.1
      · exact h2 q hq

/-- The cache of requests at the start. -/
def startReqs : St ReqDict := ⟨-1410065407, 0, [], 0⟩

example : ∀ p ∈ bidders [(0, 5, [("uox", [10, 11])]), (0, 5, [("uox", [10, 11])]),
    (1, 5, [("mox", [12])])] startReqs, ShowsRequests p.1 p.2 :=
  (C123_requests (by decide +kernel) (by simp [startReqs])).2

/-- The second bidder gets the wrappers of the first. -/
theorem C123_requests_shared (t : ℤ) (p : ℕ) (m : Commods) (s : St ReqDict) :
    ∃ d, bidders [(t, p, m), (t, p, m)] s = [(d, m), (d, m)] := by
  refine ⟨(fetch commodsToPy commodWraps t p m s).dict, ?_⟩
  have h : fetch commodsToPy commodWraps t p m (fetch commodsToPy commodWraps t p m s) =
      fetch commodsToPy commodWraps t p m s := by
    have hk : t = (fetch commodsToPy commodWraps t p m s).time ∧
        p = (fetch commodsToPy commodWraps t p m s).ptr := by
      unfold fetch
      split_ifs with h
      · exact h
      · exact ⟨rfl, rfl⟩
    generalize fetch commodsToPy commodWraps t p m s = s' at hk ⊢
    unfold fetch
    rw [if_pos hk]
  simp only [bidders, h]

/-! ## The commodity of a bid -/

/-- `bid.request.commodity` is the commodity of the request, as long as the attribute holds nothing
else. -/
theorem C123_commodity_partial (of : ℕ → ℕ) (commod : ℕ → String) (w : BidWrap)
    (h : ∀ r, w.request = some r → r.ptr = of w.ptr ∧ ∀ c, r.commodity = some c → c = commod r.ptr) :
    (w.requestCommodity of commod).2 = commod (of w.ptr) ∧
    ((w.requestCommodity of commod).1.commodity of).2 = some (commod (of w.ptr)) := by
  obtain ⟨p, r⟩ := w
  rcases r with _ | r
  · simp [BidWrap.requestCommodity, BidWrap.getRequest, ReqWrap.read, BidWrap.commodity]
  · obtain ⟨h1, h2⟩ := h r rfl
    obtain ⟨q, c⟩ := r
    simp only at h1
    subst h1
    rcases c with _ | c
    · simp [BidWrap.requestCommodity, BidWrap.getRequest, ReqWrap.read, BidWrap.commodity]
    · have := h2 c rfl
      simp only at this
      subst this
      simp [BidWrap.requestCommodity, BidWrap.getRequest, ReqWrap.read, BidWrap.commodity]

example : ((⟨3, none⟩ : BidWrap).requestCommodity (fun _ => 10) (fun _ => "uox")).2 = "uox" := rfl

/-- `bid.commodity` should be the commodity of the request. -/
def C123_statement_commodity : Prop :=
  ∀ (of : ℕ → ℕ) (commod : ℕ → String) (p : ℕ),
    ((⟨p, none⟩ : BidWrap).commodity of).2 = some (commod (of p))

/-- It is `None` for every bid whose request was not asked for its commodity before: the property
reads the attribute `_commodity` (`gentypesystem.py:2268`). -/
theorem C123_fails_commodity (of : ℕ → ℕ) (p : ℕ) :
    ((⟨p, none⟩ : BidWrap).commodity of).2 = none ∧ ¬ C123_statement_commodity := by
  refine ⟨rfl, fun h => ?_⟩
  have := h (fun _ => 0) (fun _ => "uox") 0
  cases this

/-! ## New objects -/

theorem bidsToPy_ids (r : Wrap) : ∀ (n : ℕ) (bs : List (ℕ × ℚ)), ∀ e ∈ bidsToPy r n bs,
    e.1.1 = r ∧ n ≤ e.1.2.id ∧ e.1.2.id < n + bs.length
  | _, [] => by simp [bidsToPy]
  | n, (b, x) :: l => by
    intro e he
    rw [bidsToPy, List.mem_cons] at he
    rw [List.length_cons]
    rcases he with rfl | he
    · exact ⟨rfl, le_rfl, by simp⟩
    · have := bidsToPy_ids r (n + 1) l e he
      exact ⟨this.1, by omega, by omega⟩

theorem mapToPy_ids : ∀ (n : ℕ) (m : Map), ∀ e ∈ mapToPy n m,
    n ≤ e.1.1.id ∧ e.1.1.id < e.1.2.id ∧ e.1.2.id < n + mapWraps m
  | _, [] => by simp [mapToPy]
  | n, (r, bs) :: m => by
    intro e he
    have hw : mapWraps ((r, bs) :: m) = 1 + bs.length + mapWraps m := by simp [mapWraps]
    rw [mapToPy, List.mem_append] at he
    rw [hw]
    rcases he with he | he
    · have := bidsToPy_ids ⟨n, r⟩ (n + 1) bs e he
      rw [this.1]
      simp only
      omega
    · have := mapToPy_ids (n + 1 + bs.length) m e he
      omega

theorem wrapAll_ids : ∀ (n : ℕ) (l : List ℕ), ∀ w ∈ wrapAll n l, n ≤ w.id ∧ w.id < n + l.length
  | _, [] => by simp [wrapAll]
  | n, r :: l => by
    intro w hw
    rw [wrapAll, List.mem_cons] at hw
    rw [List.length_cons]
    rcases hw with rfl | hw
    · simp
    · have := wrapAll_ids (n + 1) l w hw
      omega

theorem commodsToPy_ids : ∀ (n : ℕ) (m : Commods), ∀ e ∈ commodsToPy n m, ∀ w ∈ e.2,
    n ≤ w.id ∧ w.id < n + commodWraps m
  | _, [] => by simp [commodsToPy]
  | n, (c, rs) :: m => by
    intro e he w hw
    have hs : commodWraps ((c, rs) :: m) = rs.length + commodWraps m := by simp [commodWraps]
    rw [commodsToPy, List.mem_cons] at he
    rw [hs]
    rcases he with rfl | he
    · have := wrapAll_ids n rs w hw
      omega
    · have := commodsToPy_ids (n + rs.length) m e he w hw
      omega

/-- C123: when the cache is filled anew, every wrapper is a new object, different from all that were
made before; an agent that keeps a request or a bid from an earlier dict does not find it among the
keys of the new one.  Otherwise no object is made. -/
theorem C123_new_objects (time : ℤ) (ptr : ℕ) (m : Map) (s : St Dict) (c : Commods) (q : St ReqDict) :
    (let s' := fetch mapToPy mapWraps time ptr m s
     (¬(time = s.time ∧ ptr = s.ptr) → ∀ e ∈ s'.dict, s.next ≤ e.1.1.id ∧ e.1.1.id < s'.next ∧
        s.next ≤ e.1.2.id ∧ e.1.2.id < s'.next ∧ e.1.1.id ≠ e.1.2.id) ∧
      (time = s.time ∧ ptr = s.ptr → s' = s)) ∧
    (let q' := fetch commodsToPy commodWraps time ptr c q
     (¬(time = q.time ∧ ptr = q.ptr) → ∀ e ∈ q'.dict, ∀ w ∈ e.2, q.next ≤ w.id ∧ w.id < q'.next) ∧
      (time = q.time ∧ ptr = q.ptr → q' = q)) := by
  refine ⟨⟨fun h e he => ?_, fun h => if_pos h⟩, ⟨fun h e he w hw => ?_, fun h => if_pos h⟩⟩
  · unfold fetch at he ⊢
    rw [if_neg h] at he ⊢
    have := mapToPy_ids s.next m e he
    simp only
    omega
  · unfold fetch at he ⊢
    rw [if_neg h] at he ⊢
    exact commodsToPy_ids q.next c e he w hw

/-- Two dicts of the same map, made one after the other, have no key in common. -/
example : let s := fetch mapToPy mapWraps 1 7 [(3, [(4, (1 : ℚ))])] ⟨0, 0, [], 0⟩
    let s' := fetch mapToPy mapWraps 2 7 [(3, [(4, (1 : ℚ))])] s
    s.dict.map Prod.fst = [(⟨0, 3⟩, ⟨1, 4⟩)] ∧ s'.dict.map Prod.fst = [(⟨2, 3⟩, ⟨3, 4⟩)] := by
  decide +kernel

end Cyclus.PyPrefs.Props
