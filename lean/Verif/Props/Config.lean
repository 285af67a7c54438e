import Verif.Model.Config
import Mathlib.Tactic.NormNum

/-!
# C43: configuration defaulting and validation

C43 says: opening with zero-valued optional fields behaves as with the documented defaults; fields set by the application
are not altered; an invalid page, extent or size combination is refused before the file is touched. Each of the three
parts holds with the exceptions that the witnesses at the end of this file show.
-/
namespace Splinter.Config

/-! ## Specification -/

/-- A field, or its default when it is zero. -/
def orElse (v d : Nat) : Nat := if v = 0 then d else v

/-- The configuration with the defaults that docs and headers give, written as one table. The default of 100 that
splinterdb.h 122-129 gives for `queue_scale_percent` is left out: see `queue_scale_not_defaulted`. -/
def documented (c : Cfg) : Cfg :=
  { c with
    pageSize := orElse c.pageSize 4096
    extentSize := orElse c.extentSize 131072
    ioFlags := orElse c.ioFlags 66
    ioPerms := orElse c.ioPerms 493
    ioDepth := orElse c.ioDepth 256
    roughHeight := orElse c.roughHeight 1
    indexSize := orElse c.indexSize 512
    remainderSize := orElse c.remainderSize 4
    memtableCapacity := orElse c.memtableCapacity 25165824
    fanout := orElse c.fanout 8
    maxBranches := orElse c.maxBranches 24
    reclaim := orElse c.reclaim 18446744073709551615 }

/-- What an application may count on in a configuration that has been accepted: the subsystems agree on the geometry and the
sizes are whole numbers of pages, extents and cache batches. -/
structure Sound (k : Kvs) : Prop where
  page : k.pageSize = 4096
  extent : k.extentSize = 131072
  disk : k.capacity = k.extentCapacity * 131072
  diskPos : 0 < k.extentCapacity
  diskPages : k.capacity = k.pageCapacity * 4096
  cache : ∃ n, k.cacheCapacity = n * 262144 ∧ k.cachePages = n * 64
  queue : ∃ n, k.asyncQueue = n * 32

/-! ## Facts -/

theorem setDefaults_eq (c : Cfg) : setDefaults c = documented c := by
  have ite_with : ∀ {p : Prop} [Decidable p] (a b : Cfg), (if p then a else b) = ⟨if p then a.hasName else b.hasName,
      if p then a.nameLen else b.nameLen, if p then a.cacheSize else b.cacheSize, if p then a.diskSize else b.diskSize,
      if p then a.maxKey else b.maxKey, if p then a.hasCompare else b.hasCompare, if p then a.hasHash else b.hasHash,
      if p then a.hasKeyString else b.hasKeyString, if p then a.hasMsgString else b.hasMsgString,
      if p then a.pageSize else b.pageSize, if p then a.extentSize else b.extentSize, if p then a.ioFlags else b.ioFlags,
      if p then a.ioPerms else b.ioPerms, if p then a.ioDepth else b.ioDepth,
      if p then a.memtableThreads else b.memtableThreads, if p then a.normalThreads else b.normalThreads,
      if p then a.roughHeight else b.roughHeight, if p then a.remainderSize else b.remainderSize,
      if p then a.indexSize else b.indexSize, if p then a.useLog else b.useLog,
      if p then a.memtableCapacity else b.memtableCapacity, if p then a.fanout else b.fanout,
      if p then a.maxBranches else b.maxBranches, if p then a.useStats else b.useStats,
      if p then a.reclaim else b.reclaim, if p then a.queueScale else b.queueScale⟩ := by
    intro p _ a b; split <;> rfl
  unfold setDefaults
  simp only [ite_with, ite_self]
  rfl

theorem setDefaults_idem (c : Cfg) : setDefaults (documented c) = documented c := by
  rw [setDefaults_eq]
  have h : ∀ v d : Nat, d ≠ 0 → orElse (orElse v d) d = orElse v d := by
    intro v d hd; unfold orElse; split <;> simp_all
  simp only [documented]
  rw [h _ _ (by decide), h _ _ (by decide), h _ _ (by decide), h _ _ (by decide), h _ _ (by decide), h _ _ (by decide),
    h _ _ (by decide), h _ _ (by decide), h _ _ (by decide), h _ _ (by decide), h _ _ (by decide), h _ _ (by decide)]

theorem validData_documented (c : Cfg) : validData (documented c) = validData c := rfl

theorem initConfig_documented (z : Sizes) (c : Cfg) : initConfig z (documented c) = initConfig z c := by
  unfold initConfig
  rw [setDefaults_idem, setDefaults_eq, validData_documented]
  rfl

theorem bind_ok {A B : Type} {r : Res A} {f : A → Res B} {b : B} : r.bind f = .ok b ↔ ∃ a, r = .ok a ∧ f a = .ok b := by
  cases r <;> simp [Res.bind]

theorem growIndex_ok {limit fuel i l i' l' : Nat} (h : growIndex limit fuel i l = .ok (i', l')) (hi : i < 4294967296) :
    limit < i' ∧ i' < 4294967296 ∧ (limit < i → i' = i ∧ l' = l) ∧
      (limit < 2147483648 → ∃ n, i' = i * 2 ^ n ∧ l' = l + n ∧ (limit < i ∨ i' ≤ 2 * limit)) := by
  induction fuel generalizing i l with
  | zero => simp [growIndex] at h
  | succ k ih =>
    unfold growIndex at h
    split at h
    · rename_i hle
      obtain ⟨h1, h2, h3, h4⟩ := ih h (Nat.mod_lt _ (by decide))
      refine ⟨h1, h2, by omega, fun hl => ?_⟩
      have hm : 2 * i % 4294967296 = 2 * i := Nat.mod_eq_of_lt (by omega)
      rw [hm] at h4 h3
      obtain ⟨n, e1, e2, e3⟩ := h4 hl
      refine ⟨n + 1, by rw [e1, Nat.pow_succ]; simp only [Nat.mul_assoc, Nat.mul_comm, Nat.mul_left_comm], by omega, Or.inr ?_⟩
      rcases e3 with e3 | e3
      · have := (h3 e3).1; omega
      · exact e3
    · simp only [Res.ok.injEq, Prod.mk.injEq] at h
      obtain ⟨rfl, rfl⟩ := h
      exact ⟨by omega, hi, by simp, fun _ => ⟨0, by simp, by simp, Or.inl (by omega)⟩⟩

/-- What `trunk_config_init` changes of the configurations made before it, and what it writes. -/
theorem trunkInit_ok {z : Sizes} {c : Cfg} {k k' : Kvs} (h : trunkInit z c k = .ok k') :
    k'.fanout = c.fanout ∧ k'.maxBranches = c.maxBranches ∧ k'.reclaim = c.reclaim ∧ k'.queueScale = c.queueScale ∧
    k'.useLog = c.useLog ∧ k'.pageSize = k.pageSize ∧ k'.extentSize = k.extentSize ∧ k'.ioFlags = k.ioFlags ∧
    k'.ioPerms = k.ioPerms ∧ k'.asyncQueue = k.asyncQueue ∧ k'.capacity = k.capacity ∧ k'.pageCapacity = k.pageCapacity ∧
    k'.extentCapacity = k.extentCapacity ∧ k'.cacheCapacity = k.cacheCapacity ∧ k'.cachePages = k.cachePages ∧
    k'.logPageSize = k.logPageSize ∧ k'.memtableThreads = k.memtableThreads ∧ k'.normalThreads = k.normalThreads ∧
    k'.maxTuples / (k.pageSize / 8 * (k.extentSize / k.pageSize)) < k'.indexSize ∧
    (k'.maxTuples / (k.pageSize / 8 * (k.extentSize / k.pageSize)) < c.indexSize % 4294967296 →
      k'.indexSize = c.indexSize % 4294967296) ∧
    (c.maxBranches < 2147483648 → k'.fingerprintSize + Nat.log2 c.maxBranches + 1 ≤ 32) ∧
    (z.hdr + (c.fanout + 6) % W * ((c.maxKey + z.pivot) % W) % W + c.maxBranches * z.branch % W) % W < k.pageSize := by
  unfold trunkInit at h
  simp only at h
  split at h
  · simp at h
  split at h
  · simp at h
  rename_i hsz
  split at h
  · simp at h
  rename_i hne
  rw [bind_ok] at h
  obtain ⟨⟨i, l⟩, hg, hk⟩ := h
  obtain ⟨g1, g2, g3, _⟩ := growIndex_ok hg (Nat.mod_lt _ (by decide))
  simp only [Res.ok.injEq] at hk
  subst hk
  refine ⟨rfl, rfl, rfl, rfl, rfl, rfl, rfl, rfl, rfl, rfl, rfl, rfl, rfl, rfl, rfl, rfl, rfl, rfl, g1, fun hh => (g3 hh).1,
    fun hb => ?_, by omega⟩
  have hlog : Nat.log2 c.maxBranches < 31 := by
    rw [Nat.log2_lt (by omega)]; omega
  have hm : (32 + W - (Nat.log2 c.maxBranches + 1)) % W = 32 - (Nat.log2 c.maxBranches + 1) := by
    unfold W; omega
  simp only [hm]
  split <;> omega

/-- What is known of a configuration that `splinterdb_init_config` accepts. -/
theorem initConfig_ok {z : Sizes} {c : Cfg} {k : Kvs} (h : initConfig z c = .ok k) :
    validData c = .ok () ∧ c.hasName = true ∧ c.cacheSize ≠ 0 ∧ c.diskSize ≠ 0 ∧ c.nameLen < maxString ∧
    (documented c).pageSize = 4096 ∧ (documented c).extentSize = 131072 ∧
    (c.normalThreads + c.memtableThreads) % W < 64 ∧
    ∃ k0, trunkInit z (documented c) k0 = .ok k ∧ k0.pageSize = 4096 ∧ k0.extentSize = 131072 ∧
      k0.ioFlags = (documented c).ioFlags ∧ k0.ioPerms = (documented c).ioPerms ∧ k0.asyncQueue = (documented c).ioDepth ∧
      k0.capacity = c.diskSize ∧ k0.pageCapacity = c.diskSize / 4096 ∧ k0.extentCapacity = c.diskSize / 131072 ∧
      k0.cacheCapacity = c.cacheSize ∧ k0.cachePages = c.cacheSize / 4096 ∧ k0.logPageSize = 12 ∧
      k0.memtableThreads = c.memtableThreads ∧ k0.normalThreads = c.normalThreads := by
  unfold initConfig at h
  rw [bind_ok] at h
  obtain ⟨⟨⟩, hv, h⟩ := h
  rw [setDefaults_eq] at h
  simp only at h
  split at h
  · simp at h
  rename_i h1
  split at h
  · simp at h
  rename_i h2
  split at h
  · simp at h
  rename_i h3
  split at h
  · simp at h
  rename_i h4
  simp only [laioValid, taskValid, Bool.not_eq_true, Bool.or_eq_true, not_or, Bool.not_eq_eq_eq_not, Bool.not_true,
    Bool.not_false, decide_eq_true_eq, Bool.and_eq_true, Bool.not_eq_false, Nat.not_le, ge_iff_le] at h1 h2 h3 h4
  obtain ⟨hp, he⟩ := h3
  refine ⟨hv, h1.1.1, h1.1.2, h1.2, h2, hp, he, h4, _, h, hp, he, rfl, rfl, rfl, rfl, ?_, ?_, rfl, ?_, ?_, rfl, rfl⟩
  · show _ / _ = _; rw [hp]; rfl
  · show _ / _ = _; rw [he]; rfl
  · show _ / _ = _; rw [hp]; rfl
  · show Nat.log2 _ = _; rw [hp]; decide

theorem openDb_ok {z : Sizes} {c : Cfg} {k : Kvs} {t : Bool} (h : openDb z c = (.ok k, t)) :
    initConfig z c = .ok k ∧ k.asyncQueue % 32 = 0 ∧ allocatorValid k = true ∧ cacheValid k = true ∧ t = true := by
  unfold openDb at h
  split at h
  · rename_i k' hk
    split at h
    · simp at h
    split at h
    · simp at h
    split at h
    · simp at h
    · simp only [Prod.mk.injEq, Res.ok.injEq] at h
      obtain ⟨rfl, rfl⟩ := h
      rename_i h1 h2 h3
      exact ⟨hk, by omega, by simpa using h2, by simpa using h3, rfl⟩
  · rename_i r hr
    simp only [Prod.mk.injEq] at h
    exact absurd h.1 (hr k)

/-! ## Defaults -/

/-- Opening with zero-valued optional fields does exactly what opening with the documented defaults does. Missing:
`queue_scale_percent`, whose documented default is not applied. -/
theorem C43_defaults_partial (z : Sizes) (c : Cfg) : openDb z c = openDb z (documented c) := by
  unfold openDb
  rw [initConfig_documented]

/-! ## Fields set by the application -/

/-- In an accepted configuration the subsystems are given the application's values, or the documented default where the
application gave none. Missing: the size of a filter index is given modulo `2 ^ 32`, and is raised when it is too small for
the largest filter; `cache_use_stats` is not looked at. -/
theorem C43_kept_partial (z : Sizes) (c : Cfg) (k : Kvs) (t : Bool) (h : openDb z c = (.ok k, t)) :
    k.pageSize = orElse c.pageSize 4096 ∧ k.extentSize = orElse c.extentSize 131072 ∧
    k.ioFlags = orElse c.ioFlags 66 ∧ k.ioPerms = orElse c.ioPerms 493 ∧ k.asyncQueue = orElse c.ioDepth 256 ∧
    k.capacity = c.diskSize ∧ k.cacheCapacity = c.cacheSize ∧
    k.memtableThreads = c.memtableThreads ∧ k.normalThreads = c.normalThreads ∧
    k.fanout = orElse c.fanout 8 ∧ k.maxBranches = orElse c.maxBranches 24 ∧
    k.reclaim = orElse c.reclaim 18446744073709551615 ∧ k.queueScale = c.queueScale ∧ k.useLog = c.useLog ∧
    k.maxTuples / 16384 < k.indexSize ∧
    (orElse c.indexSize 512 < 4294967296 → k.maxTuples / 16384 < orElse c.indexSize 512 →
      k.indexSize = orElse c.indexSize 512) := by
  obtain ⟨hi, -⟩ := openDb_ok h
  obtain ⟨-, -, -, -, -, hp, he, -, k0, ht, p1, p2, p3, p4, p5, p6, p7, p8, p9, p10, p11, p12, p13⟩ := initConfig_ok hi
  obtain ⟨t1, t2, t3, t4, t5, t6, t7, t8, t9, t10, t11, t12, t13, t14, t15, t16, t17, t18, t19, t20, -⟩ := trunkInit_ok ht
  rw [p1, p2] at t19 t20
  norm_num at t19 t20
  refine ⟨by rw [t6, p1]; exact hp.symm, by rw [t7, p2]; exact he.symm, by rw [t8, p3]; rfl, by rw [t9, p4]; rfl,
    by rw [t10, p5]; rfl, by rw [t11, p6], by rw [t14, p9], by rw [t17, p12], by rw [t18, p13], t1, t2, t3, t4, t5, t19, ?_⟩
  intro hlt hbig
  have hm : (documented c).indexSize % 4294967296 = orElse c.indexSize 512 := Nat.mod_eq_of_lt hlt
  rw [hm] at t20
  exact t20 hbig

/-! ## Validation -/

/-- Everything that is accepted is sound: the only accepted geometry is 4 KiB pages in 128 KiB extents, the device holds a
positive whole number of extents, the cache a whole number of batches of 64 pages. -/
theorem accepted_sound (z : Sizes) (c : Cfg) (k : Kvs) (t : Bool) (hd : c.diskSize < W) (hc : c.cacheSize < W)
    (h : openDb z c = (.ok k, t)) : Sound k := by
  obtain ⟨hi, hq, ha, hcv, -⟩ := openDb_ok h
  obtain ⟨-, -, -, -, -, hp, he, -, k0, ht, p1, p2, p3, p4, p5, p6, p7, p8, p9, p10, p11, p12, p13⟩ := initConfig_ok hi
  obtain ⟨t1, t2, t3, t4, t5, t6, t7, t8, t9, t10, t11, t12, t13, t14, t15, t16, t17, t18, t19, t20, -⟩ := trunkInit_ok ht
  simp only [allocatorValid, Bool.and_eq_true, bne_iff_ne, ne_eq, beq_iff_eq] at ha
  obtain ⟨⟨⟨⟨-, a1⟩, a2⟩, a3⟩, a4⟩ := ha
  simp only [cacheValid, Bool.and_eq_true, beq_iff_eq] at hcv
  obtain ⟨c1, c2⟩ := hcv
  rw [t16, p11] at c2
  rw [t6, p1] at a3
  rw [t7, p2] at a4
  rw [t12, p7] at a3
  rw [t13, p8] at a4 a2
  rw [t11, p6] at a3 a4
  rw [t15, p10] at c1 c2
  rw [t14, p9] at c2
  unfold W at a3 a4 c2 hd hc
  refine ⟨by rw [t6, p1], by rw [t7, p2], ?_, ?_, ?_, ⟨c.cacheSize / 262144, ?_, ?_⟩, ⟨k.asyncQueue / 32, by omega⟩⟩
  · rw [t11, p6, t13, p8]; omega
  · rw [t13, p8]; omega
  · rw [t11, p6, t12, p7]; omega
  · rw [t14, p9]; omega
  · rw [t15, p10]; omega

/-- What must hold of the page, extent, disk and cache sizes, the threads and the trunk node for the configuration to be
usable, written without the code's arithmetic. -/
structure Usable (z : Sizes) (c : Cfg) : Prop where
  name : c.hasName = true
  page : c.pageSize = 0 ∨ c.pageSize = 4096
  extent : c.extentSize = 0 ∨ c.extentSize = 131072
  disk : c.diskSize ≠ 0
  cache : c.cacheSize ≠ 0
  threads : c.normalThreads + c.memtableThreads < 64
  /-- a trunk node with all its pivots and branches fits into a page -/
  node : z.hdr + (orElse c.fanout 8 + 6) * (c.maxKey + z.pivot) + orElse c.maxBranches 24 * z.branch < 4096

/-- A configuration that is not usable is refused before the file is touched, with `STATUS_BAD_PARAM` unless the data
configuration or the length of the file name is at fault. Missing: the sums and products of the sizes must stay below
`2 ^ 64` (the code computes them modulo `2 ^ 64`, see `threads_wrap` and `node_wrap`), and that the disk and cache sizes are
whole numbers of extents and of batches is found only when the file has been opened (`touched_iff`). -/
theorem C43_refused_partial (z : Sizes) (c : Cfg) (hn : ¬ Usable z c)
    (ht : c.normalThreads + c.memtableThreads < W)
    (hw : z.hdr + (orElse c.fanout 8 + 6) * (c.maxKey + z.pivot) + orElse c.maxBranches 24 * z.branch < W) :
    (openDb z c).2 = false ∧ (∀ k, (openDb z c).1 ≠ .ok k) ∧
      (validData c = .ok () → c.nameLen < 256 → (openDb z c).1 = .bad) := by
  have hno : ∀ k, initConfig z c ≠ .ok k := by
    intro k hi
    obtain ⟨hv, h1, h2, h3, h4, hp, he, hth, k0, htr, p1, p2, -⟩ := initConfig_ok hi
    obtain ⟨-, -, -, -, -, -, -, -, -, -, -, -, -, -, -, -, -, -, -, -, -, hnode⟩ := trunkInit_ok htr
    refine hn ⟨h1, ?_, ?_, h3, h2, ?_, ?_⟩
    · simp only [documented, orElse] at hp; split at hp <;> omega
    · simp only [documented, orElse] at he; split at he <;> omega
    · rw [Nat.mod_eq_of_lt ht] at hth; exact hth
    · rw [p1] at hnode
      have e1 : (documented c).fanout = orElse c.fanout 8 := rfl
      have e2 : (documented c).maxBranches = orElse c.maxBranches 24 := rfl
      have e3 : (documented c).maxKey = c.maxKey := rfl
      rw [e1, e2, e3] at hnode
      have hmul : orElse c.fanout 8 + 6 ≤ (orElse c.fanout 8 + 6) * (c.maxKey + z.pivot) ∨ c.maxKey + z.pivot = 0 := by
        rcases Nat.eq_zero_or_pos (c.maxKey + z.pivot) with h0 | h0
        · exact Or.inr h0
        · exact Or.inl (Nat.le_mul_of_pos_right _ h0)
      have hmul2 : c.maxKey + z.pivot ≤ (orElse c.fanout 8 + 6) * (c.maxKey + z.pivot) := Nat.le_mul_of_pos_left _ (by omega)
      have hmk : 0 < c.maxKey := by
        by_contra h0
        have : c.maxKey = 0 := by omega
        simp [validData, this] at hv
      rw [Nat.mod_eq_of_lt (a := orElse c.fanout 8 + 6) (by omega), Nat.mod_eq_of_lt (a := c.maxKey + z.pivot) (by omega),
        Nat.mod_eq_of_lt (a := (orElse c.fanout 8 + 6) * (c.maxKey + z.pivot)) (by omega),
        Nat.mod_eq_of_lt (a := orElse c.maxBranches 24 * z.branch) (by omega), Nat.mod_eq_of_lt hw] at hnode
      exact hnode
  have ho : openDb z c = (initConfig z c, false) := by
    unfold openDb
    split
    · rename_i k hk; exact absurd hk (hno k)
    · rfl
  rw [ho]
  refine ⟨rfl, hno, fun hv hl => ?_⟩
  show initConfig z c = .bad
  unfold initConfig at hno ⊢
  rw [hv, setDefaults_eq] at hno ⊢
  simp only [Res.bind] at hno ⊢
  split
  · rfl
  rename_i h1
  rw [if_neg h1] at hno
  split
  · rename_i h2
    have : (documented c).nameLen = c.nameLen := rfl
    unfold maxString at h2; omega
  rename_i h2
  rw [if_neg h2] at hno
  split
  · rfl
  rename_i h3
  rw [if_neg h3] at hno
  split
  · rfl
  rename_i h4
  rw [if_neg h4] at hno
  simp only [laioValid, taskValid, Bool.not_eq_true, Bool.or_eq_true, not_or, Bool.not_eq_eq_eq_not, Bool.not_true,
    Bool.not_false, decide_eq_true_eq, Bool.and_eq_true, Bool.not_eq_false] at h1 h3 h4
  have e1 : (documented c).fanout = orElse c.fanout 8 := rfl
  have e2 : (documented c).maxBranches = orElse c.maxBranches 24 := rfl
  have e3 : (documented c).maxKey = c.maxKey := rfl
  have hmk : 0 < c.maxKey := by
    by_contra h0
    have : c.maxKey = 0 := by omega
    simp [validData, this] at hv
  have hmul : orElse c.fanout 8 + 6 ≤ (orElse c.fanout 8 + 6) * (c.maxKey + z.pivot) :=
    Nat.le_mul_of_pos_right _ (by omega)
  have hmul2 : c.maxKey + z.pivot ≤ (orElse c.fanout 8 + 6) * (c.maxKey + z.pivot) := Nat.le_mul_of_pos_left _ (by omega)
  unfold trunkInit
  simp only [e1, e2, e3]
  rw [Nat.mod_eq_of_lt (a := orElse c.fanout 8 + 6) (by omega), Nat.mod_eq_of_lt (a := c.maxKey + z.pivot) (by omega),
    Nat.mod_eq_of_lt (a := (orElse c.fanout 8 + 6) * (c.maxKey + z.pivot)) (by omega),
    Nat.mod_eq_of_lt (a := orElse c.maxBranches 24 * z.branch) (by omega), Nat.mod_eq_of_lt hw]
  rw [if_neg (by omega), if_pos]
  show (documented c).pageSize ≤ _
  rw [h3.1]
  by_contra hlt
  refine hn ⟨h1.1.1, ?_, ?_, h1.2, h1.1.2, ?_, by omega⟩
  · have := h3.1; simp only [documented, orElse] at this; split at this <;> omega
  · have := h3.2; simp only [documented, orElse] at this; split at this <;> omega
  · rw [Nat.mod_eq_of_lt ht] at h4; exact h4

/-- When the file has been touched, either the configuration was accepted, or the disk size is not a whole number of
extents, or the cache size is not a whole number of batches: these two are the only faults found too late. -/
theorem touched_iff (z : Sizes) (c : Cfg) (hd : c.diskSize < W) (hc : c.cacheSize < W) (ht : (openDb z c).2 = true) :
    (∃ k, (openDb z c).1 = .ok k) ∨ (c.diskSize % 131072 ≠ 0 ∧ (openDb z c).1 = .bad) ∨
      (c.cacheSize % 262144 ≠ 0 ∧ (openDb z c).1 = .abort) := by
  unfold openDb at ht ⊢
  split at ht
  · rename_i k hi
    obtain ⟨-, -, -, hdp, -, hp, he, -, k0, htr, p1, p2, p3, p4, p5, p6, p7, p8, p9, p10, p11, p12, p13⟩ := initConfig_ok hi
    obtain ⟨t1, t2, t3, t4, t5, t6, t7, t8, t9, t10, t11, t12, t13, t14, t15, t16, t17, t18, t19, t20, -⟩ := trunkInit_ok htr
    split at ht
    · simp at ht
    rename_i h1
    simp only [h1, if_false]
    by_cases h2 : allocatorValid k = true
    · by_cases h3 : cacheValid k = true
      · left; simp [h2, h3]
      · right; right
        simp only [h2, h3, Bool.not_true, Bool.false_eq_true, if_false, Bool.not_false, if_true, and_true]
        intro hm
        apply h3
        simp only [cacheValid, Bool.and_eq_true, beq_iff_eq]
        rw [t16, p11, t15, p10, t14, p9]
        unfold W at hc ⊢
        omega
    · right; left
      simp only [h2, Bool.not_false, if_true, and_true]
      intro hm
      apply h2
      simp only [allocatorValid, laioValid, Bool.and_eq_true, bne_iff_ne, ne_eq, beq_iff_eq, decide_eq_true_eq]
      rw [t6, p1, t7, p2, t12, p7, t13, p8, t11, p6]
      unfold W at hd ⊢
      omega
  · simp at ht

/-! ## Examples and witnesses -/

/-- The sizes of the packed structures of trunk.c 482-577. -/
def sizes : Sizes := ⟨1190, 91, 8⟩

/-- A configuration with every optional field zero. -/
def plain : Cfg :=
  ⟨true, 10, 64 * 1048576, 127 * 1048576, 24, true, true, true, true, 0, 0, 0, 0, 0, 0, 0, 0, 0, 0, false, 0, 0, 0, 0, 0, 0⟩

/-- It is accepted, with the defaults. -/
example : ∃ k, openDb sizes plain = (.ok k, true) ∧ k.fanout = 8 ∧ k.asyncQueue = 256 ∧ k.extentCapacity = 1016 := by
  refine ⟨_, rfl, ?_⟩
  decide +kernel

/-- Other values are kept. -/
example : ∃ k, openDb sizes { plain with fanout := 10, indexSize := 1024, ioDepth := 64, reclaim := 7 } = (.ok k, true) ∧
    k.fanout = 10 ∧ k.asyncQueue = 64 ∧ k.indexSize = 1024 ∧ k.reclaim = 7 := by
  refine ⟨_, rfl, ?_⟩
  decide +kernel

/-- `C43_refused_partial` applies to a page size of 8 KiB. -/
example : openDb sizes { plain with pageSize := 8192 } = (.bad, false) := by decide +kernel

example : ¬ Usable sizes { plain with pageSize := 8192 } := fun h => by
  have := h.page; revert this; decide

/-- ... and to a fanout for which a node does not fit into a page. -/
example : openDb sizes { plain with fanout := 100 } = (.bad, false) := by decide +kernel

/-- The default of 100 given for `queue_scale_percent` is not applied: 0 is handed to the trunk, and means that foreground
threads perform every background task. -/
theorem queue_scale_not_defaulted : ∃ k k', openDb sizes plain = (.ok k, true) ∧
    openDb sizes { plain with queueScale := 100 } = (.ok k', true) ∧ k.queueScale = 0 ∧ k'.queueScale = 100 := by
  refine ⟨_, _, rfl, rfl, ?_⟩
  decide +kernel

/-- A disk size that is not a whole number of extents is refused when the file has been created. -/
theorem disk_size_touches_file : openDb sizes { plain with diskSize := 127 * 1048576 + 4096 } = (.bad, true) := by
  decide +kernel

/-- A cache size that is not a whole number of batches fails an assertion when the file has been created. -/
theorem cache_size_aborts : openDb sizes { plain with cacheSize := 64 * 1048576 + 4096 } = (.abort, true) := by
  decide +kernel

/-- A queue depth that is not a multiple of 32 fails an assertion. -/
theorem queue_depth_aborts : openDb sizes { plain with ioDepth := 100 } = (.abort, false) := by decide +kernel

/-- Thread counts whose sum wraps are accepted. -/
theorem threads_wrap : ∃ k, openDb sizes { plain with normalThreads := W - 1, memtableThreads := 2 } = (.ok k, true) ∧
    k.normalThreads = W - 1 := by
  refine ⟨_, rfl, ?_⟩
  decide +kernel

/-- A fanout and a key size whose product wraps are accepted, although not even one pivot fits into a page. -/
theorem node_wrap : ∃ k, openDb sizes { plain with fanout := 4294967296 - 6, maxKey := 4294967296 - 91, memtableCapacity := 65536 } = (.ok k, true) ∧
    k.pageSize = 4096 := by
  refine ⟨_, rfl, ?_⟩
  decide +kernel

/-- A filter index size of `2 ^ 32` becomes 0, whose logarithm is then taken. -/
theorem index_size_ub : openDb sizes { plain with indexSize := 4294967296 } = (.ub, false) := by decide +kernel

/-- A memtable smaller than half an extent makes the code take the logarithm of 0. -/
theorem memtable_capacity_ub : openDb sizes { plain with memtableCapacity := 65535 } = (.ub, false) := by decide +kernel

/-- A filter index size that is too small is replaced. -/
theorem index_size_raised : ∃ k, openDb sizes { plain with indexSize := 1, memtableCapacity := 1048576 * 1024 } = (.ok k, true) ∧
    k.indexSize ≠ 1 := by
  refine ⟨_, rfl, ?_⟩
  decide +kernel

end Splinter.Config
