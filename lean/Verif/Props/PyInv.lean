import Verif.Lemmas.PyInv
import Verif.Lemmas.PyAgent

/-!
# C121: inventories of agents written in Python

Models `/repo/cyclus/agents.pyx`; see `Model/PyInv.lean`.
-/

namespace Cyclus.PyInv

open InfileGen (Str PyVal)
open ResBuf (Kind)

/-! ## Snapshots -/

theorem snapshot_empty (eps : ℚ) (oid : ℕ → ℤ) : ∀ (l rest : List (Str × Box)), (∀ e ∈ l, e.2.Empty) →
    ∃ l' d, (∀ e ∈ l', e.2.Empty) ∧ l'.map Prod.fst = l.map Prod.fst ∧
      d.map Prod.fst = l.map Prod.fst ∧ (∀ e ∈ d, e.2 = []) ∧
      snapshotInv eps oid (l ++ rest) = (l' ++ (snapshotInv eps oid rest).1,
        match (snapshotInv eps oid rest).2 with | .ok d' => .ok (d ++ d') | .error e => .error e)
  | [], rest, _ => ⟨[], [], by simp, rfl, rfl, by simp, by
      rcases h : snapshotInv eps oid rest with ⟨a, _ | d⟩ <;> simp [h]⟩
  | (n, b) :: l, rest, h => by
    obtain ⟨l', d, h1, h2, h3, h4, h5⟩ := snapshot_empty eps oid l rest
      fun e he => h e (List.mem_cons_of_mem _ he)
    have hb : b.Empty := h (n, b) (by simp)
    have hone : ∃ b', b'.Empty ∧ snapshotInv eps oid ((n, b) :: (l ++ rest)) =
        ((n, b') :: (snapshotInv eps oid (l ++ rest)).1,
          match (snapshotInv eps oid (l ++ rest)).2 with
          | .ok d => .ok ((n, []) :: d)
          | .error e => .error e) := by
      cases b with
      | buf k s =>
        have hs : s.rs = [] := hb
        refine ⟨.buf k { s with qty := 0 }, hs, ?_⟩
        rw [snapshotInv]
        simp only [popAllRes, popN_nil hs, List.map_nil, pushMany, pushEach]
        rfl
      | map s c =>
        have hs : s.res = [] := hb
        refine ⟨.map (ResMap.setValues oid s []) c, hs, ?_⟩
        rw [snapshotInv]
        simp only [popAllRes, mapValues, ResMap.values, hs, pushMany, List.map_nil, List.filterMap_nil]
        rfl
    obtain ⟨b', hb', hone⟩ := hone
    refine ⟨(n, b') :: l', (n, []) :: d, ?_, by simp [h2], by simp [h3], ?_, ?_⟩
    · intro e he
      rcases List.mem_cons.1 he with rfl | he
      · exact hb'
      · exact h1 e he
    · intro e he
      rcases List.mem_cons.1 he with rfl | he
      · rfl
      · exact h4 e he
    · rw [List.cons_append, hone, h5]
      rcases h : snapshotInv eps oid rest with ⟨a, _ | d'⟩ <;> simp

/-- A snapshot while nothing is in the inventories leaves them so. -/
theorem C121_empty (eps : ℚ) (oid : ℕ → ℤ) {l : List (Str × Box)} (h : ∀ e ∈ l, e.2.Empty) :
    (snapshot eps oid l).2 = .ok [] ∧ (∀ e ∈ (snapshot eps oid l).1, e.2.Empty) ∧
      (snapshot eps oid l).1.map Prod.fst = l.map Prod.fst := by
  obtain ⟨l', d, h1, h2, _, _, h5⟩ := snapshot_empty eps oid l [] h
  rw [List.append_nil] at h5
  unfold snapshot
  rw [h5]
  simp only [snapshotInv, List.append_nil, toCpp_nil]
  exact ⟨trivial, h1, h2⟩

example : ∀ e ∈ [((['i'] : Str), fresh (.buf .material)), (['m'], fresh .map)], e.2.Empty := by
  intro e he
  simp only [List.mem_cons, List.not_mem_nil, or_false] at he
  rcases he with rfl | rfl <;> rfl

/-- What a snapshot gives to C++ is always empty: no resource of an agent is recorded. -/
theorem C121_fails_snapshot (eps : ℚ) (oid : ℕ → ℤ) (l : List (Str × Box)) {r : List (Str × List ℕ)}
    (h : (snapshot eps oid l).2 = .ok r) : r = [] := by
  unfold snapshot at h
  rcases e : snapshotInv eps oid l with ⟨a, _ | d⟩
  · rw [e] at h; cases h
  · rw [e] at h
    simp only [Except.ok.injEq] at h
    rw [← h, toCpp_nil]

/-- So the contents of an inventory that is not empty are not recorded. -/
theorem C121_fails_recorded (eps : ℚ) (oid : ℕ → ℤ) {l : List (Str × Box)} {n : Str} {b : Box}
    (_hb : (n, b) ∈ l) (hc : b.contents ≠ []) :
    ¬ ∃ r, (snapshot eps oid l).2 = .ok r ∧ recorded r n = b.contents := by
  rintro ⟨r, hr, h⟩
  rw [C121_fails_snapshot eps oid l hr] at h
  exact hc h.symm

/-- A buffer for examples: it holds one resource of one kilogram. -/
def oneBuf : ResBuf.St := { ResBuf.init false with heap := fun _ => ⟨1, 0, true⟩, next := 1, rs := [0], present := [0], qty := 1 }

example : ((['i'] : Str), Box.buf .material oneBuf) ∈ [((['i'] : Str), Box.buf .material oneBuf)] ∧
    (Box.buf .material oneBuf).contents ≠ [] := ⟨by simp, by simp [Box.contents, oneBuf]⟩

/-- The first buffer that is not empty is emptied by a snapshot, which then raises a `TypeError`: the resources
are lost. -/
theorem C121_fails_lost (eps : ℚ) (oid : ℕ → ℤ) {pre post : List (Str × Box)} {n : Str} {k : Kind}
    {s : ResBuf.St} (hp : ∀ e ∈ pre, e.2.Empty) (hs : s.rs ≠ []) :
    ∃ pre' s', (∀ e ∈ pre', e.2.Empty) ∧ s'.rs = [] ∧
      snapshot eps oid (pre ++ (n, .buf k s) :: post) = (pre' ++ (n, .buf k s') :: post, .error .type) := by
  obtain ⟨l', d, h1, _, _, _, h5⟩ := snapshot_empty eps oid pre ((n, .buf k s) :: post) hp
  obtain ⟨s', hs', hs1, _⟩ := popN_all s
  have hstep : snapshotInv eps oid ((n, .buf k s) :: post) = ((n, .buf k s') :: post, .error .type) := by
    rw [snapshotInv]
    match hrs : s.rs with
    | [] => exact absurd hrs hs
    | r :: rest =>
      rw [hrs] at hs'
      simp only [popAllRes, hs', hrs, List.map_cons, pushMany, pushEach, push]
  refine ⟨l', s', h1, hs1, ?_⟩
  unfold snapshot
  rw [h5, hstep]

example : oneBuf.rs ≠ [] := by simp [oneBuf]

/-- With a map, a snapshot adds an entry with the default key, which holds the last resource once more. -/
theorem C121_fails_map (eps : ℚ) (oid : ℕ → ℤ) {n : Str} {s : ResMap.St} {c : Option ℚ} {r : ℕ}
    (hi : s.ids = []) (h0 : ResMap.find s.res 0 = none) (hr : (mapValues s).getLast? = some r) :
    ∃ s', snapshot eps oid [(n, .map s c)] = ([(n, .map s' c)], .ok []) ∧ s'.res = s.res ++ [(0, some r)] ∧
      total s.heap s'.res = total s.heap s.res + s.heap r := by
  have hres : (ResMap.setValues oid s (mapValues s)).res = s.res ++ [(0, some r)] := by
    rw [setValues_res oid hi hr, setKey_new _ _ _ h0]
  refine ⟨ResMap.setValues oid s (mapValues s), ?_, hres, ?_⟩
  · have hm : ((mapValues s).map Wrap.resource).map Wrap.ptr = mapValues s := by
      rw [List.map_map]
      exact List.map_id _
    unfold snapshot
    simp only [snapshotInv, popAllRes, pushMany, hm, toCpp_nil]
  · rw [hres]
    simp [total]

/-- A map for examples. -/
def oneMap : ResMap.St := { ResMap.init fun _ => 2 with res := [(5, some 3), (7, some 4)] }

example : oneMap.ids = [] ∧ ResMap.find oneMap.res 0 = none ∧ (mapValues oneMap).getLast? = some 4 :=
  ⟨rfl, rfl, rfl⟩

/-! ## Restarts -/

/-- Inventories for which nothing is given stay as they are. -/
theorem C121_init_none (eps : ℚ) (oid : ℕ → ℤ) (invs : List (Str × List ℕ)) : ∀ (l : List (Str × Box)),
    (∀ e ∈ l, ∀ x ∈ invs, x.1 ≠ e.1) → init eps oid invs l = (l, .ok ())
  | [], _ => rfl
  | (n, b) :: l, h => by
    have ih := C121_init_none eps oid invs l fun e he => h e (List.mem_cons_of_mem _ he)
    have hn : (toPy invs).lookup n = none := by
      rw [PyAgent.lookup_none]
      intro x hx
      obtain ⟨y, hy, rfl⟩ := List.mem_map.1 hx
      exact h (n, b) (by simp) y hy
    unfold init at ih ⊢
    rw [initInv, hn]
    simp only [ih]

example : ∀ e ∈ [((['i'] : Str), fresh (.buf .material))], ∀ x ∈ [((['j'] : Str), [1, 2])], x.1 ≠ e.1 := by
  intro e he x hx
  simp only [List.mem_singleton] at he hx
  subst he hx
  decide

/-- So an agent that is started again from its snapshot has what new inventories have: nothing. -/
theorem C121_fails_restart (eps : ℚ) (oid : ℕ → ℤ) (l : List (Str × Box)) {r : List (Str × List ℕ)}
    (h : (snapshot eps oid l).2 = .ok r) (new : List (Str × Box)) : init eps oid r new = (new, .ok ()) := by
  rw [C121_fails_snapshot eps oid l h]
  exact C121_init_none eps oid [] new (by simp)

example : (snapshot 0 (fun r => r) [((['m'] : Str), Box.map oneMap none)]).2 = .ok [] := by
  obtain ⟨s', h, _⟩ := C121_fails_map 0 (fun r => (r : ℤ)) (n := ['m']) (s := oneMap) (c := none) (r := 4) rfl rfl rfl
  rw [h]

/-- A buffer for which resources are given gets none of them, and a `TypeError` is raised. -/
theorem C121_fails_init (eps : ℚ) (oid : ℕ → ℤ) {invs : List (Str × List ℕ)} {n : Str} {k : Kind} {s : ResBuf.St}
    {post : List (Str × Box)} {r : ℕ} {rs : List ℕ} (h : invs.lookup n = some (r :: rs)) :
    init eps oid invs ((n, .buf k s) :: post) = ((n, .buf k s) :: post, .error .type) := by
  have hl : (toPy invs).lookup n = some (.resource r :: rs.map .resource) := by
    unfold toPy
    clear * - h
    induction invs with
    | nil => simp at h
    | cons e invs ih =>
      obtain ⟨m, x⟩ := e
      rw [List.map_cons, List.lookup_cons]
      rw [List.lookup_cons] at h
      cases hm : n == m
      · rw [hm] at h
        exact ih h
      · rw [hm] at h
        simp only [Option.some.injEq] at h
        subst h
        rfl
  unfold init
  rw [initInv, hl]
  simp only [pushMany, pushEach, push]

example : [((['i'] : Str), [3, 4])].lookup ['i'] = some (3 :: [4]) := by decide

/-- A new map for which resources are given has one of them, the last one, under the default key. -/
theorem C121_fails_init_map (eps : ℚ) (oid : ℕ → ℤ) {n : Str} {rs : List ℕ} {r : ℕ} (h : rs.getLast? = some r) :
    ∃ s, init eps oid [(n, rs)] [(n, fresh .map)] = ([(n, .map s none)], .ok ()) ∧ s.res = [(0, some r)] := by
  refine ⟨ResMap.setValues oid (ResMap.init fun _ => 0) rs, ?_, ?_⟩
  · have hm : (rs.map Wrap.resource).map Wrap.ptr = rs := by
      rw [List.map_map]
      exact List.map_id _
    unfold init
    simp only [toPy, List.map_cons, List.map_nil, initInv, List.lookup_cons, beq_self_eq_true, fresh, pushMany, hm]
  · rw [setValues_res oid rfl h]
    rfl

example : [3, 4].getLast? = some 4 := rfl

theorem toPy_lookup (invs : List (Str × List ℕ)) (n : Str) :
    (toPy invs).lookup n = (invs.lookup n).map (List.map .resource) := by
  induction invs with
  | nil => rfl
  | cons e invs ih =>
    obtain ⟨m, x⟩ := e
    unfold toPy at ih ⊢
    rw [List.map_cons, List.lookup_cons, List.lookup_cons]
    cases hm : n == m
    · exact ih
    · rfl

/-- Every map for which resources are given gets its own, wherever it stands among the
inventories. -/
theorem C121_init_maps (eps : ℚ) (oid : ℕ → ℤ) (invs : List (Str × List ℕ)) :
    ∀ (l : List (Str × ResMap.St × Option ℚ)),
    init eps oid invs (l.map fun e => (e.1, .map e.2.1 e.2.2)) =
      (l.map fun e => (e.1, .map (match invs.lookup e.1 with
        | none => e.2.1
        | some rs => ResMap.setValues oid e.2.1 rs) e.2.2), .ok ())
  | [] => rfl
  | (n, s, c) :: l => by
    have ih := C121_init_maps eps oid invs l
    unfold init at ih ⊢
    rw [List.map_cons, List.map_cons, initInv, toPy_lookup]
    cases hl : invs.lookup n with
    | none => simp only [Option.map_none, ih]
    | some rs =>
      have hm : (rs.map Wrap.resource).map Wrap.ptr = rs := by
        rw [List.map_map]
        exact List.map_id _
      simp only [Option.map_some, pushMany, hm, ih]

example : (init 0 (fun r => (r : ℤ)) [(['a'], [3]), (['b'], [4])]
    [(['a'], .map oneMap none), (['b'], .map oneMap none)]).2 = .ok () := by
  have := C121_init_maps 0 (fun r => (r : ℤ)) [(['a'], [3]), (['b'], [4])]
    [(['a'], oneMap, none), (['b'], oneMap, none)]
  simp only [List.map_cons, List.map_nil] at this
  rw [this]

/-! ## Pushing -/

/-- A resource of the class of the buffer is pushed as C++ pushes it. -/
theorem C121_push (eps : ℚ) (k : Kind) (s : ResBuf.St) (r : ℕ) :
    (push eps k (some s) (.typed k r)).1 = some (ResBuf.push k eps s r).1 ∧
      ((push eps k (some s) (.typed k r)).2 = .ok () ↔ (ResBuf.push k eps s r).2 = .ok ()) := by
  unfold push
  simp only [if_pos]
  rcases ResBuf.push k eps s r with ⟨s', _ | _⟩ <;> simp

/-- Sinks accept nothing: a material raises a `TypeError`, a product is pushed to a null pointer. -/
theorem C121_fails_sink (eps : ℚ) (r : ℕ) (l : List Wrap) :
    sinkAccepts eps none (.typed .material r :: l) = (none, .error .type) ∧
      sinkAccepts eps none (.typed .product r :: l) = (none, .error .null) := by
  constructor
  · rfl
  · rfl

/-- With a buffer they would accept all that they are given, as `push_many` does. -/
theorem C121_sink_buffer (eps : ℚ) : ∀ (l : List Wrap) (s : ResBuf.St),
    sinkAccepts eps (some s) l = (some (pushEach eps .product s l).1, (pushEach eps .product s l).2)
  | [], _ => rfl
  | w :: l, s => by
    have hp : ∃ s' x, push eps .product (some s) w = (some s', x) := by
      unfold push
      cases w with
      | resource r => exact ⟨_, _, rfl⟩
      | typed k r =>
        simp only
        split_ifs
        · rcases ResBuf.push .product eps s r with ⟨s', _ | _⟩ <;> exact ⟨_, _, rfl⟩
        · exact ⟨_, _, rfl⟩
    obtain ⟨s', x, hx⟩ := hp
    rw [sinkAccepts, pushEach, hx]
    cases x with
    | error e => rfl
    | ok u => exact C121_sink_buffer eps l s'

/-! ## Capacities -/

/-- A new inventory gets the capacity that its annotation says: that of the state variable, the number, or
else 1e300. -/
theorem C121_capacity (eps : ℚ) (heps : 0 ≤ eps) (d : List (Str × PyVal)) : ∀ (l : List (Str × Cap × Form)),
    (∀ e ∈ l, ∃ q, 0 ≤ q ∧ capacityOf d e.2.1 = .ok q) →
    ∃ l', initCapacities eps d (l.map fun e => (e.1, e.2.1, fresh e.2.2)) = (l', .ok ()) ∧
      List.Forall₂ (fun e e' => e'.1 = e.1 ∧ e'.2.1 = e.2.1 ∧ e'.2.2.Empty ∧
        ∃ q, capacityOf d e.2.1 = .ok q ∧ HasCapacity e'.2.2 (some q)) l l'
  | [], _ => ⟨[], rfl, .nil⟩
  | (n, c, f) :: l, h => by
    obtain ⟨l', h1, h2⟩ := C121_capacity eps heps d l fun e he => h e (List.mem_cons_of_mem _ he)
    obtain ⟨q, hq, hc⟩ := h (n, c, f) (by simp)
    simp only at hc
    have hset : ∃ b, setCapacity eps (fresh f) (some q) = (b, .ok ()) ∧ b.Empty ∧ HasCapacity b (some q) := by
      cases f with
      | buf k =>
        refine ⟨.buf k { ResBuf.init false with cap := some q }, ?_, rfl, .buf k _⟩
        have h1 : ¬ q < 0 := not_lt.2 hq
        have h2 : ¬ ((ResBuf.init false).qty - q > eps) := by
          rw [show (ResBuf.init false).qty = 0 from rfl]
          exact not_lt.2 (by linarith)
        simp only [fresh, setCapacity, ResBuf.setCap, if_neg h1, if_neg h2]
      | map => exact ⟨_, rfl, rfl, .map _ q⟩
    obtain ⟨b, hb, hb1, hb2⟩ := hset
    refine ⟨(n, c, b) :: l', ?_, .cons ⟨rfl, rfl, hb1, q, hc, hb2⟩ h2⟩
    rw [List.map_cons, initCapacities]
    simp only [hc, hb, h1]

/-- What annotations of capacities say. -/
theorem C121_says (d : List (Str × PyVal)) (n : Str) (q : ℚ) :
    capacityOf d .none = .ok (10 ^ 300) ∧ capacityOf d (.num q) = .ok q ∧
      (d.lookup n = some (.float q) → capacityOf d (.var n) = .ok q) ∧
      (∀ z : ℤ, d.lookup n = some (.int z) → capacityOf d (.var n) = .ok z) ∧
      (∀ b, d.lookup n = some (.bool b) → capacityOf d (.var n) = .ok (if b then 1 else 0)) ∧
      (∀ s, d.lookup n = some (.str s) → capacityOf d (.var n) = .error .type) ∧
      (d.lookup n = none → capacityOf d (.var n) = .error .key) := by
  refine ⟨rfl, rfl, fun h => ?_, fun z h => ?_, fun b h => ?_, fun s h => ?_, fun h => ?_⟩ <;>
    simp only [capacityOf, h, toDouble]

example : ∀ e ∈ [((['i'] : Str), Cap.var ['c'], Form.buf .material), (['j'], .none, .map)],
    ∃ q, 0 ≤ q ∧ capacityOf [(['c'], .float 3)] e.2.1 = .ok q := by
  intro e he
  simp only [List.mem_cons, List.not_mem_nil, or_false] at he
  rcases he with rfl | rfl
  · exact ⟨3, by norm_num, rfl⟩
  · exact ⟨10 ^ 300, by positivity, rfl⟩

/-- A negative capacity is refused. -/
theorem C121_negative (eps : ℚ) (d : List (Str × PyVal)) {n : Str} {k : Kind} {c : Cap} {s : ResBuf.St}
    {l : List (Str × Cap × Box)} {q : ℚ} (hq : q < 0) (hc : capacityOf d c = .ok q) :
    initCapacities eps d ((n, c, .buf k s) :: l) = ((n, c, .buf k s) :: l, .error (.cpp .value)) := by
  rw [initCapacities]
  simp only [hc, setCapacity, ResBuf.setCap, if_pos hq]

example : capacityOf [] (.num (-1)) = .ok (-1) ∧ (-1 : ℚ) < 0 := ⟨rfl, by norm_num⟩

/-- The inventories of a clone have the names, classes and capacities of those of the original, and are
empty. -/
theorem C121_clone (eps : ℚ) (heps : 0 ≤ eps) : ∀ (l : List (Str × Box)),
    (∀ e ∈ l, ∃ c, HasCapacity e.2 c ∧ ∀ q, c = some q → 0 ≤ q) →
    ∃ l', clone eps l = (l', .ok ()) ∧
      List.Forall₂ (fun e e' => e'.1 = e.1 ∧ e'.2.form = e.2.form ∧ e'.2.Empty ∧
        ∀ c, HasCapacity e.2 c → HasCapacity e'.2 c) l l'
  | [], _ => ⟨[], rfl, .nil⟩
  | (n, b) :: l, h => by
    obtain ⟨l', h1, h2⟩ := C121_clone eps heps l fun e he => h e (List.mem_cons_of_mem _ he)
    obtain ⟨c, hc, hq⟩ := h (n, b) (by simp)
    simp only at hc
    have hset : ∃ b', getCapacity b = .ok c ∧ setCapacity eps (fresh b.form) c = (b', .ok ()) ∧
        b'.form = b.form ∧ b'.Empty ∧ ∀ c, HasCapacity b c → HasCapacity b' c := by
      cases hc with
      | buf k s =>
        refine ⟨.buf k { ResBuf.init false with cap := s.cap }, rfl, ?_, rfl, rfl, ?_⟩
        · rcases hcap : s.cap with _ | q
          · rfl
          · have h1 : ¬ q < 0 := not_lt.2 (hq q hcap)
            have h2 : ¬ ((ResBuf.init false).qty - q > eps) := by
              rw [show (ResBuf.init false).qty = 0 from rfl]
              have := hq q hcap
              exact not_lt.2 (by linarith)
            simp only [Box.form, fresh, setCapacity, ResBuf.setCap, if_neg h1, if_neg h2]
        · intro c hc
          cases hc
          exact .buf k _
      | map s q =>
        refine ⟨.map (ResMap.init fun _ => 0) (some q), rfl, rfl, rfl, rfl, ?_⟩
        intro c hc
        cases hc
        exact .map _ q
    obtain ⟨b', hg, hb, hf, he, hk⟩ := hset
    refine ⟨(n, b') :: l', ?_, .cons ⟨rfl, hf, he, hk⟩ h2⟩
    unfold clone at h1 ⊢
    rw [List.map_cons, copyCapacities]
    simp only [hg, hb, h1]

example : ∀ e ∈ [((['i'] : Str), Box.buf .material oneBuf), (['m'], .map oneMap (some 5))],
    ∃ c, HasCapacity e.2 c ∧ ∀ q, c = some q → 0 ≤ q := by
  intro e he
  simp only [List.mem_cons, List.not_mem_nil, or_false] at he
  rcases he with rfl | rfl
  · exact ⟨none, .buf _ oneBuf, by simp⟩
  · exact ⟨some 5, .map _ 5, by rintro q ⟨⟩; norm_num⟩

/-- A map whose capacity was not set makes a copy fail. -/
theorem C121_fails_clone (eps : ℚ) (n : Str) (s : ResMap.St) (l : List (Str × Box)) :
    (clone eps ((n, .map s none) :: l)).2 = .error .attr := rfl

end Cyclus.PyInv
