import Verif.Cli.Pool
/-!
# The tables of the pool agree

The invariant of the pool of connections, and its proof for every step.
-/
namespace Verif.Cli

/-- The tables of the pool agree with each other. -/
structure Inv (p : Pool) : Prop where
  keys : (p.active.map (·.1)).Nodup
  active : ∀ k c, (k, c) ∈ p.active → (p.conn c).thread = some k.1 ∧ (p.conn c).target = k.2 ∧ c < p.next
  threads : ∀ t c, (t, c) ∈ p.threads ↔ ∃ g, ((t, g), c) ∈ p.active
  threadsNodup : p.threads.Nodup
  idleNodup : p.idle.Nodup
  idle : ∀ c ∈ p.idle, (p.conn c).thread = none ∧ c < p.next
  idleT : ∀ g c, (g, c) ∈ p.idleT ↔ c ∈ p.idle ∧ (p.conn c).target = g
  bound : p.active.length + p.idle.length ≤ p.max
  closed : ∀ c ∈ p.closed, c < p.next ∧ c ∉ p.idle ∧ ∀ k, (k, c) ∉ p.active

theorem inv_init (max : Nat) : Inv (Pool.init max) := by
  constructor <;> simp [Pool.init]

theorem active_unique {p : Pool} (h : Inv p) {k : Nat × Nat} {c c' : Nat} (h1 : (k, c) ∈ p.active) (h2 : (k, c') ∈ p.active) : c = c' := by
  have := List.inj_on_of_nodup_map h.keys h1 h2 rfl
  exact (Prod.mk.inj this).2

theorem active_key {p : Pool} (h : Inv p) {k k' : Nat × Nat} {c : Nat} (h1 : (k, c) ∈ p.active) (h2 : (k', c) ∈ p.active) : k = k' := by
  have a := h.active k c h1
  have b := h.active k' c h2
  ext
  · have := a.1.symm.trans b.1; simpa using this
  · exact a.2.1.symm.trans b.2.1

/-- What `_activate_connection` does to a connection that no thread has. -/
def activated (p : Pool) (c t : Nat) : Pool :=
  { p with
    conn := setConn p.conn c { p.conn c with thread := some t }
    active := p.active ++ [((t, (p.conn c).target), c)]
    threads := p.threads ++ [(t, c)]
    idle := p.idle.filter (· != c)
    idleT := p.idleT.filter (· != ((p.conn c).target, c)) }

theorem filter_ne_self {α : Type} [DecidableEq α] {l : List α} {a : α} (h : a ∉ l) : l.filter (· != a) = l := by
  rw [List.filter_eq_self]
  intro x hx
  simp only [bne_iff_ne]
  rintro rfl
  exact h hx

theorem activate_eq {p : Pool} (h : Inv p) {c t : Nat} (hth : (p.conn c).thread = none)
    (hk : ∀ c', ((t, (p.conn c).target), c') ∉ p.active) : activate p c t = some (activated p c t) := by
  have h1 : dictPut p.active (t, (p.conn c).target) c = p.active ++ [((t, (p.conn c).target), c)] := by
    unfold dictPut
    rw [if_neg]
    simp only [List.any_eq_true, beq_iff_eq, not_exists, not_and]
    rintro ⟨k, c'⟩ hm rfl
    exact hk c' hm
  have h2 : addKey p.threads (t, c) = p.threads ++ [(t, c)] := by
    unfold addKey
    rw [if_neg]
    simp only [List.contains_iff_mem]
    intro hm
    obtain ⟨g, hm⟩ := (h.threads t c).mp hm
    rw [(h.active _ _ hm).1] at hth
    cases hth
  unfold activate
  dsimp only
  rw [h1, h2]
  by_cases hc : c ∈ p.idle
  · rw [if_pos (by simpa using hc), if_pos (by simpa using (h.idleT _ c).mpr ⟨hc, rfl⟩)]
    rfl
  · rw [if_neg (by simpa using hc)]
    unfold activated
    have e : p.idleT.filter (· != ((p.conn c).target, c)) = p.idleT := by
      rw [List.filter_eq_self]
      intro x hx
      simp only [bne_iff_ne]
      rintro rfl
      exact hc ((h.idleT _ c).mp hx).1
    rw [filter_ne_self hc, e]

theorem length_filter_ne {α : Type} [DecidableEq α] {l : List α} {a : α} (h : l.Nodup) (hm : a ∈ l) :
    (l.filter (· != a)).length + 1 = l.length := by
  induction l with
  | nil => cases hm
  | cons b l ih =>
    rw [List.nodup_cons] at h
    rcases List.mem_cons.mp hm with rfl | hm
    · rw [List.filter_cons_of_neg (by simp), filter_ne_self h.1]; rfl
    · rw [List.filter_cons_of_pos (by simp only [bne_iff_ne]; rintro rfl; exact h.1 hm)]
      simp only [List.length_cons]
      rw [ih h.2 hm]

theorem activated_inv {p : Pool} (h : Inv p) {c t : Nat} (hth : (p.conn c).thread = none) (hlt : c < p.next)
    (hk : ∀ c', ((t, (p.conn c).target), c') ∉ p.active) (hcl : c ∉ p.closed)
    (hb : c ∈ p.idle ∨ p.active.length + p.idle.length < p.max) : Inv (activated p c t) := by
  have hna : ∀ k, (k, c) ∉ p.active := by
    intro k hm
    rw [(h.active _ _ hm).1] at hth
    cases hth
  have hnt : ∀ c', ((setConn p.conn c { p.conn c with thread := some t }) c').target = (p.conn c').target := by
    intro c'
    unfold setConn
    split
    · next e => rw [e]
    · rfl
  have hne : ∀ c', c' ≠ c → (setConn p.conn c { p.conn c with thread := some t }) c' = p.conn c' := by
    intro c' hc'
    unfold setConn
    rw [if_neg hc']
  constructor
  · simp only [activated, List.map_append, List.map_cons, List.map_nil]
    rw [List.nodup_append]
    refine ⟨h.keys, by simp, ?_⟩
    intro a ha b hb
    simp only [List.mem_singleton] at hb
    obtain ⟨⟨k, c'⟩, hm, rfl⟩ := List.mem_map.mp ha
    rintro rfl
    dsimp only at hb
    subst hb
    exact hk c' hm
  · intro k c' hm
    simp only [activated, List.mem_append, List.mem_singleton, Prod.mk.injEq] at hm ⊢
    rcases hm with hm | ⟨rfl, rfl⟩
    · have : c' ≠ c := by rintro rfl; exact hna _ hm
      rw [hne c' this]
      exact h.active k c' hm
    · rw [hnt]
      exact ⟨by simp [setConn], rfl, hlt⟩
  · intro t' c'
    simp only [activated, List.mem_append, List.mem_singleton, Prod.mk.injEq]
    rw [h.threads]
    constructor
    · rintro (⟨g, hm⟩ | ⟨rfl, rfl⟩)
      · exact ⟨g, .inl hm⟩
      · exact ⟨_, .inr ⟨⟨rfl, rfl⟩, rfl⟩⟩
    · rintro ⟨g, hm | ⟨⟨rfl, rfl⟩, rfl⟩⟩
      · exact .inl ⟨g, hm⟩
      · exact .inr ⟨rfl, rfl⟩
  · simp only [activated]
    rw [List.nodup_append]
    refine ⟨h.threadsNodup, by simp, ?_⟩
    intro a ha b hb
    simp only [List.mem_singleton] at hb
    rintro rfl
    subst hb
    obtain ⟨g, hm⟩ := (h.threads t c).mp ha
    exact hna _ hm
  · exact h.idleNodup.filter _
  · intro c' hm
    simp only [activated, List.mem_filter, bne_iff_ne] at hm ⊢
    rw [hne c' hm.2]
    exact h.idle c' hm.1
  · intro g c'
    simp only [activated, List.mem_filter, bne_iff_ne, hnt, h.idleT, ne_eq, Prod.mk.injEq, not_and]
    constructor
    · rintro ⟨⟨h1, h2⟩, h3⟩
      refine ⟨⟨h1, ?_⟩, h2⟩
      rintro rfl
      exact h3 h2.symm rfl
    · rintro ⟨⟨h1, h2⟩, h3⟩
      exact ⟨⟨h1, h3⟩, fun _ => h2⟩
  · simp only [activated, List.length_append, List.length_cons, List.length_nil]
    have := h.bound
    rcases hb with hb | hb
    · have := length_filter_ne h.idleNodup hb
      omega
    · have := List.length_filter_le (· != c) p.idle
      omega
  · intro c' hm
    simp only [activated, List.mem_filter, bne_iff_ne, List.mem_append, List.mem_singleton, Prod.mk.injEq] at hm ⊢
    obtain ⟨h1, h2, h3⟩ := h.closed c' hm
    refine ⟨h1, fun hh => h2 hh.1, ?_⟩
    rintro k (hh | ⟨-, rfl⟩)
    · exact h3 k hh
    · exact hcl hm

theorem newConn_inv {p : Pool} (h : Inv p) (g : Nat) : Inv (newConn p g) := by
  have hne : ∀ c, c < p.next → (setConn p.conn p.next ⟨g, none, 0⟩) c = p.conn c := by
    intro c hc
    unfold setConn
    rw [if_neg (by omega)]
  constructor
  · exact h.keys
  · intro k c hm
    have := h.active k c hm
    simp only [newConn]
    rw [hne c this.2.2]
    exact ⟨this.1, this.2.1, by omega⟩
  · exact h.threads
  · exact h.threadsNodup
  · exact h.idleNodup
  · intro c hm
    have := h.idle c hm
    simp only [newConn]
    rw [hne c this.2]
    exact ⟨this.1, by omega⟩
  · intro g' c
    simp only [newConn]
    rw [h.idleT]
    constructor
    · rintro ⟨h1, h2⟩; rw [hne c (h.idle c h1).2]; exact ⟨h1, h2⟩
    · rintro ⟨h1, h2⟩; rw [hne c (h.idle c h1).2] at h2; exact ⟨h1, h2⟩
  · exact h.bound
  · intro c hm
    have := h.closed c hm
    exact ⟨by simp only [newConn]; omega, this.2⟩

/-- What `_delete_idle_connection` does to an idle connection. -/
def dropped (p : Pool) (c : Nat) : Pool :=
  { p with
    idle := p.idle.filter (· != c)
    idleT := p.idleT.filter (· != ((p.conn c).target, c))
    closed := p.closed ++ [c] }

theorem deleteIdle_eq {p : Pool} (h : Inv p) {c : Nat} (hc : c ∈ p.idle) : deleteIdle p c = some (dropped p c) := by
  unfold deleteIdle
  rw [if_pos (by simpa using hc), if_pos (by simpa using (h.idleT _ c).mpr ⟨hc, rfl⟩)]
  rfl

theorem dropped_inv {p : Pool} (h : Inv p) {c : Nat} (hc : c ∈ p.idle) : Inv (dropped p c) := by
  constructor
  · exact h.keys
  · exact h.active
  · exact h.threads
  · exact h.threadsNodup
  · exact h.idleNodup.filter _
  · intro c' hm
    exact h.idle c' (List.mem_filter.mp hm).1
  · intro g c'
    simp only [dropped, List.mem_filter, bne_iff_ne, h.idleT, ne_eq, Prod.mk.injEq, not_and]
    constructor
    · rintro ⟨⟨h1, h2⟩, h3⟩
      refine ⟨⟨h1, ?_⟩, h2⟩
      rintro rfl
      exact h3 h2.symm rfl
    · rintro ⟨⟨h1, h2⟩, h3⟩
      exact ⟨⟨h1, h3⟩, fun _ => h2⟩
  · have := h.bound
    have := List.length_filter_le (· != c) p.idle
    simp only [dropped]
    omega
  · intro c' hm
    simp only [dropped, List.mem_append, List.mem_singleton, List.mem_filter, bne_iff_ne] at hm ⊢
    rcases hm with hm | rfl
    · obtain ⟨h1, h2, h3⟩ := h.closed c' hm
      exact ⟨h1, fun hh => h2 hh.1, h3⟩
    · refine ⟨(h.idle c' hc).2, fun hh => hh.2 rfl, ?_⟩
      intro k hm
      have := (h.active k c' hm).1
      rw [(h.idle c' hc).1] at this
      cases this

/-- The most recently used of some connections. -/
theorem sorted_last {p : Pool} {l : List Nat} {c : Nat} (h : (sorted p l).getLast? = some c) :
    c ∈ l ∧ ∀ c' ∈ l, (p.conn c').last ≤ (p.conn c).last := by
  have hperm := List.mergeSort_perm l (fun a b => decide ((p.conn a).last ≤ (p.conn b).last))
  have hs : (sorted p l).Pairwise fun a b => decide ((p.conn a).last ≤ (p.conn b).last) = true :=
    List.pairwise_mergeSort (le := fun a b => decide ((p.conn a).last ≤ (p.conn b).last))
      (by intro a b c; simp only [decide_eq_true_eq]; omega) (by intro a b; simp only [Bool.or_eq_true, decide_eq_true_eq]; omega) l
  obtain ⟨ys, hy⟩ := List.getLast?_eq_some_iff.mp h
  rw [hy] at hs
  rw [List.pairwise_append] at hs
  refine ⟨hperm.mem_iff.mp (by show c ∈ sorted p l; rw [hy]; simp), ?_⟩
  intro c' hc'
  have : c' ∈ sorted p l := hperm.mem_iff.mpr hc'
  rw [hy] at this
  rcases List.mem_append.mp this with hm | hm
  · have := hs.2.2 c' hm c (by simp)
    simpa using this
  · simp only [List.mem_singleton] at hm; rw [hm]; exact Nat.le_refl _

/-- The least recently used of some connections. -/
theorem sorted_first {p : Pool} {l : List Nat} {c : Nat} (h : (sorted p l).head? = some c) :
    c ∈ l ∧ ∀ c' ∈ l, (p.conn c).last ≤ (p.conn c').last := by
  have hperm := List.mergeSort_perm l (fun a b => decide ((p.conn a).last ≤ (p.conn b).last))
  have hs : (sorted p l).Pairwise fun a b => decide ((p.conn a).last ≤ (p.conn b).last) = true :=
    List.pairwise_mergeSort (le := fun a b => decide ((p.conn a).last ≤ (p.conn b).last))
      (by intro a b c; simp only [decide_eq_true_eq]; omega) (by intro a b; simp only [Bool.or_eq_true, decide_eq_true_eq]; omega) l
  obtain ⟨ys, hy⟩ := List.head?_eq_some_iff.mp h
  rw [hy, List.pairwise_cons] at hs
  refine ⟨hperm.mem_iff.mp (by show c ∈ sorted p l; rw [hy]; simp), ?_⟩
  intro c' hc'
  have : c' ∈ sorted p l := hperm.mem_iff.mpr hc'
  rw [hy] at this
  rcases List.mem_cons.mp this with rfl | hm
  · exact Nat.le_refl _
  · simpa using hs.1 c' hm

theorem sorted_nil {p : Pool} {l : List Nat} : ((sorted p l).getLast? = none ↔ l = []) ∧ ((sorted p l).head? = none ↔ l = []) := by
  have hperm := List.mergeSort_perm l (fun a b => decide ((p.conn a).last ≤ (p.conn b).last))
  have : sorted p l = [] ↔ l = [] := by
    constructor
    · intro h; exact List.Perm.nil_eq ((show sorted p l = _ from h) ▸ hperm) |>.symm
    · rintro rfl; exact List.Perm.eq_nil hperm
  simp [List.getLast?_eq_none_iff, List.head?_eq_none_iff, this]

/-- The idle connections to a target. -/
def idleFor (p : Pool) (g : Nat) : List Nat := (p.idleT.filter (·.1 == g)).map (·.2)

theorem mem_idleFor {p : Pool} (h : Inv p) {g c : Nat} : c ∈ idleFor p g ↔ c ∈ p.idle ∧ (p.conn c).target = g := by
  unfold idleFor
  simp only [List.mem_map, List.mem_filter, beq_iff_eq]
  constructor
  · rintro ⟨⟨g', c'⟩, ⟨h1, h2⟩, rfl⟩
    dsimp only at h2 ⊢
    subst h2
    exact (h.idleT _ _).mp h1
  · intro hm
    exact ⟨(g, c), ⟨(h.idleT _ _).mpr hm, rfl⟩, rfl⟩

/-- The thread has no connection to the target in use. -/
def NoKey (p : Pool) (t g : Nat) : Prop := ∀ c, ((t, g), c) ∉ p.active

theorem find_key {p : Pool} (h : Inv p) (t g : Nat) :
    (∃ c, ((t, g), c) ∈ p.active ∧ p.active.find? (·.1 == (t, g)) = some ((t, g), c)) ∨
      (NoKey p t g ∧ p.active.find? (·.1 == (t, g)) = none) := by
  cases hf : p.active.find? (·.1 == (t, g)) with
  | none =>
    right
    refine ⟨?_, rfl⟩
    intro c hm
    have := List.find?_eq_none.mp hf _ hm
    simp at this
  | some e =>
    left
    have h1 := List.find?_some hf
    have h2 := List.mem_of_find?_eq_some hf
    obtain ⟨k, c⟩ := e
    simp only [beq_iff_eq] at h1
    subst h1
    exact ⟨c, h2, rfl⟩

/-- The five cases of the loop of `queue_request`. -/
theorem seek_cases {p : Pool} (h : Inv p) (t g fuel : Nat) (hf : p.idle.length < fuel) :
    (∃ c, ((t, g), c) ∈ p.active ∧ seek t g fuel p = some (p, some c)) ∨
    (NoKey p t g ∧ ∃ c, c ∈ p.idle ∧ (p.conn c).target = g ∧ (∀ c' ∈ p.idle, (p.conn c').target = g → (p.conn c').last ≤ (p.conn c).last) ∧
      seek t g fuel p = some (activated p c t, some c)) ∨
    (NoKey p t g ∧ (∀ c ∈ p.idle, (p.conn c).target ≠ g) ∧ p.active.length + p.idle.length < p.max ∧
      seek t g fuel p = some (activated (newConn p g) p.next t, some p.next)) ∨
    (NoKey p t g ∧ (∀ c ∈ p.idle, (p.conn c).target ≠ g) ∧ p.active.length + p.idle.length = p.max ∧
      ∃ c ∈ p.idle, (∀ c' ∈ p.idle, (p.conn c).last ≤ (p.conn c').last) ∧
      seek t g fuel p = some (activated (newConn (dropped p c) g) p.next t, some p.next)) ∨
    (NoKey p t g ∧ p.idle = [] ∧ p.active.length = p.max ∧ seek t g fuel p = some (p, none)) := by
  have fresh : ∀ q : Pool, Inv q → NoKey q t g → activate (newConn q g) q.next t = some (activated (newConn q g) q.next t) := by
    intro q hq hn
    refine activate_eq (newConn_inv hq g) ?_ ?_
    · simp [newConn, setConn]
    · intro c'
      have : ((newConn q g).conn q.next).target = g := by simp [newConn, setConn]
      rw [this]
      exact hn c'
  have room : ∀ (q : Pool) (n : Nat), Inv q → NoKey q t g → (∀ c ∈ q.idle, (q.conn c).target ≠ g) → q.active.length + q.idle.length < q.max →
      seek t g (n + 1) q = some (activated (newConn q g) q.next t, some q.next) := by
    intro q n hq hn hi hr
    rw [seek]
    rcases find_key hq t g with ⟨c, hm, -⟩ | ⟨-, hfind⟩
    · exact absurd hm (hn c)
    · rw [hfind]
      have : idleFor q g = [] := by
        rw [List.eq_nil_iff_forall_not_mem]
        intro c hm
        obtain ⟨h1, h2⟩ := (mem_idleFor hq).mp hm
        exact hi c h1 h2
      have h2 := (sorted_nil (p := q)).1.mpr this
      unfold idleFor at h2
      dsimp only
      rw [h2]
      dsimp only
      rw [if_pos hr, fresh q hq hn]
      rfl
  cases fuel with
  | zero => omega
  | succ fuel =>
  rcases find_key h t g with ⟨c, hm, hfind⟩ | ⟨hno, hfind⟩
  · left
    refine ⟨c, hm, ?_⟩
    rw [seek, hfind]
  · right
    cases hl : (sorted p (idleFor p g)).getLast? with
    | some c =>
      left
      obtain ⟨h1, h2⟩ := sorted_last hl
      obtain ⟨h3, h4⟩ := (mem_idleFor h).mp h1
      refine ⟨hno, c, h3, h4, fun c' i j => h2 c' ((mem_idleFor h).mpr ⟨i, j⟩), ?_⟩
      rw [seek, hfind]
      unfold idleFor at hl
      dsimp only
      rw [hl]
      dsimp only
      rw [activate_eq h (h.idle c h3).1 (by rw [h4]; exact hno)]
      rfl
    | none =>
      right
      have hnil := (sorted_nil (p := p)).1.mp hl
      have hi : ∀ c ∈ p.idle, (p.conn c).target ≠ g := by
        intro c hc ht
        have := (mem_idleFor h).mpr ⟨hc, ht⟩
        rw [hnil] at this
        cases this
      by_cases hr : p.active.length + p.idle.length < p.max
      · left
        exact ⟨hno, hi, hr, room p fuel h hno hi hr⟩
      · right
        have hb := h.bound
        cases ho : (sorted p p.idle).head? with
        | none =>
          right
          have hnil' := (sorted_nil (p := p)).2.mp ho
          refine ⟨hno, hnil', by rw [hnil'] at hb hr; simp only [List.length_nil] at hb hr; omega, ?_⟩
          rw [seek, hfind]
          unfold idleFor at hl
          dsimp only
          rw [hl]
          dsimp only
          rw [if_neg hr, ho]
        | some c =>
          left
          obtain ⟨h1, h2⟩ := sorted_first ho
          refine ⟨hno, hi, by omega, c, h1, h2, ?_⟩
          rw [seek, hfind]
          unfold idleFor at hl
          dsimp only
          rw [hl]
          dsimp only
          rw [if_neg hr, ho]
          dsimp only
          rw [deleteIdle_eq h h1]
          dsimp only
          have hlen := length_filter_ne h.idleNodup h1
          cases fuel with
          | zero =>
            have : 0 < p.idle.length := List.length_pos_of_mem h1
            omega
          | succ fuel =>
            refine room (dropped p c) fuel (dropped_inv h h1) hno ?_ ?_
            · intro c' hc'
              exact hi c' (List.mem_filter.mp hc').1
            · simp only [dropped]
              omega

end Verif.Cli
