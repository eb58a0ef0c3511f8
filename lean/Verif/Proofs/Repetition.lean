import Verif.Model.Repetition
import Mathlib.Data.Nat.ModEq
import Mathlib.Tactic.Ring
/-!
# Round trip through the disk
-/

namespace Attimo

theorem toBytes_length (n x : Nat) : (toBytes n x).length = n := by simp [toBytes]

theorem toBytes_succ (n x : Nat) : toBytes (n + 1) x = BitVec.ofNat 8 (x / 256 ^ n) :: toBytes n x := by
  unfold toBytes
  rw [List.range_succ_eq_map, List.map_cons, List.map_map]
  refine congrArg₂ _ (by simp) (List.map_congr_left ?_)
  intro k hk
  rw [List.mem_range] at hk
  simp only [Function.comp]
  rw [show n + 1 - 1 - (k + 1) = n - 1 - k by omega]

theorem foldl_bytes (n x : Nat) : ∀ a, (toBytes n x).foldl (fun a (b : Byte) => a * 256 + b.toNat) a =
    a * 256 ^ n + x % 256 ^ n := by
  induction n with
  | zero => intro a; simp [toBytes, Nat.mod_one]
  | succ n ih =>
    intro a
    rw [toBytes_succ, List.foldl_cons, ih, BitVec.toNat_ofNat]
    have h1 : x % 256 ^ (n + 1) = x % 256 ^ n + 256 ^ n * (x / 256 ^ n % 256) := by
      rw [pow_succ, Nat.mod_mul]
    rw [h1]
    norm_num
    ring

theorem fromBytes_toBytes (n x : Nat) (h : x < 256 ^ n) : fromBytes (toBytes n x) = x := by
  unfold fromBytes
  rw [foldl_bytes, Nat.mod_eq_of_lt h]; simp

theorem flatMap_take {α β} (f : α → List β) (k : Nat) (hf : ∀ a, (f a).length = k) (q : Nat) (l : List α) :
    (l.flatMap f).take (q * k) = (l.take q).flatMap f ∧ (l.flatMap f).drop (q * k) = (l.drop q).flatMap f := by
  induction q generalizing l with
  | zero => simp
  | succ q ih =>
    cases l with
    | nil => simp
    | cons a l =>
      have e : (q + 1) * k = (f a).length + q * k := by rw [hf]; ring
      rw [List.flatMap_cons, e, List.take_length_add_append, List.drop_length_add_append, (ih l).1, (ih l).2]
      simp

/-- elements read back, when every read delivers a multiple of the element size -/
theorem readLoop_ok (k : Nat) (hk : 0 < k) (h8 : 8192 % k = 0) (buf rest : List Byte) (evs : List ReadEv)
    (acc : List Nat) : ∀ (ys zs : List Nat), buf = ys.flatMap (toBytes k) → rest = zs.flatMap (toBytes k) →
    (∀ y ∈ ys, y < 256 ^ k) → (∀ z ∈ zs, z < 256 ^ k) →
    (∀ e ∈ evs, ∃ c, e = .got c ∧ 0 < c ∧ c % k = 0) → readLoop k hk buf rest evs acc = .ok (acc ++ ys ++ zs) := by
  fun_induction readLoop k hk buf rest evs acc with
  | case1 rest evs acc b bs hlen ih =>
    intro ys zs h1 h2 h3 h4 h5
    cases ys with
    | nil => simp at h1
    | cons y ys =>
      have ht : (b :: bs).take k = toBytes k y := by
        rw [h1, List.flatMap_cons]
        exact List.take_left' (toBytes_length k y)
      have hd : (b :: bs).drop k = ys.flatMap (toBytes k) := by
        rw [h1, List.flatMap_cons]
        exact List.drop_left' (toBytes_length k y)
      rw [ih ys zs hd h2 (fun z hz => h3 z (List.mem_cons_of_mem _ hz)) h4 h5, ht,
        fromBytes_toBytes _ _ (h3 y (List.mem_cons_self ..))]
      simp
  | case2 rest evs acc b bs hlen =>
    intro ys zs h1 h2 h3 h4 h5
    exfalso
    apply hlen
    cases ys with
    | nil => simp at h1
    | cons y ys => rw [h1, List.flatMap_cons, List.take_left' (toBytes_length k y), toBytes_length]
  | case3 evs acc =>
    intro ys zs h1 h2 h3 h4 h5
    have e1 : ys = [] := by
      cases ys with
      | nil => rfl
      | cons y ys => exfalso; have := congrArg List.length h1; simp [toBytes_length] at this; omega
    have e2 : zs = [] := by
      cases zs with
      | nil => rfl
      | cons y ys => exfalso; have := congrArg List.length h2; simp [toBytes_length] at this; omega
    simp [e1, e2]
  | case4 acc x xs tl =>
    intro ys zs h1 h2 h3 h4 h5
    obtain ⟨c, hc, _⟩ := h5 _ (List.mem_cons_self ..)
    cases hc
  | case5 acc x xs c evs ih =>
    intro ys zs h1 h2 h3 h4 h5
    have e1 : ys = [] := by
      cases ys with
      | nil => rfl
      | cons y ys => exfalso; have := congrArg List.length h1; simp [toBytes_length] at this; omega
    subst e1
    obtain ⟨c', hc, hc0, hck⟩ := h5 _ (List.mem_cons_self ..)
    cases hc
    obtain ⟨q, hq⟩ : ∃ q, max 1 (min c 8192) = q * k := by
      rcases Nat.le_total c 8192 with h | h
      · rw [min_eq_left h, max_eq_right hc0]
        exact ⟨c / k, (Nat.div_mul_cancel (Nat.dvd_of_mod_eq_zero hck)).symm⟩
      · rw [min_eq_right h]
        exact ⟨8192 / k, by rw [Nat.div_mul_cancel (Nat.dvd_of_mod_eq_zero h8)]; rfl⟩
    obtain ⟨f1, f2⟩ := flatMap_take (toBytes k) k (toBytes_length k) q zs
    rw [ih (zs.take q) (zs.drop q) (by rw [h2, hq, f1]) (by rw [h2, hq, f2])
      (fun z hz => h4 z (List.mem_of_mem_take hz)) (fun z hz => h4 z (List.mem_of_mem_drop hz))
      (fun e he => h5 e (List.mem_cons_of_mem _ he))]
    simp
  | case6 acc x xs ih =>
    intro ys zs h1 h2 h3 h4 h5
    have e1 : ys = [] := by
      cases ys with
      | nil => rfl
      | cons y ys => exfalso; have := congrArg List.length h1; simp [toBytes_length] at this; omega
    subst e1
    have hq : 8192 = 8192 / k * k := (Nat.div_mul_cancel (Nat.dvd_of_mod_eq_zero h8)).symm
    obtain ⟨f1, f2⟩ := flatMap_take (toBytes k) k (toBytes_length k) (8192 / k) zs
    rw [← hq] at f1 f2
    rw [ih (zs.take (8192 / k)) (zs.drop (8192 / k)) (by rw [h2, f1]) (by rw [h2, f2])
      (fun z hz => h4 z (List.mem_of_mem_take hz)) (fun z hz => h4 z (List.mem_of_mem_drop hz)) (by simp)]
    simp

/-- a buffer that does not hold a whole number of elements makes the loop panic -/
theorem readLoop_short (k : Nat) (hk : 0 < k) (rest : List Byte) (evs : List ReadEv) : ∀ (m : Nat) (buf : List Byte)
    (acc : List Nat), buf.length = m → m % k ≠ 0 → readLoop k hk buf rest evs acc = .error .assertion := by
  intro m
  induction m using Nat.strong_induction_on with
  | _ m ih =>
    intro buf acc hm hk'
    cases buf with
    | nil => exfalso; subst hm; exact hk' (by simp)
    | cons b bs =>
      unfold readLoop
      split
      · rename_i h
        rw [List.length_take] at h
        refine ih (m - k) (by rw [← hm]; simp; omega) _ _ (by rw [List.length_drop, hm]) ?_
        rw [← Nat.mod_eq_sub_mod (by omega)]
        exact hk'
      · rfl

theorem FS.set_self (fs : FS) (p : Path) (n : Option Node) : fs.set p n p = n := by simp [FS.set]
theorem FS.set_ne (fs : FS) {p q : Path} (n : Option Node) (h : q ≠ p) : fs.set p n q = fs q := by simp [FS.set, h]

/-- A file system: only directories have children. -/
def FS.WF (fs : FS) : Prop := ∀ p : Path, p ≠ [] → fs p ≠ none → fs p.dropLast = some .dir

/-- the two files of a repetition on disk -/
def hashesPath (tmp : Path) (name : String) : Path := tmp ++ [name] ++ ["hashes.bin"]
def indicesPath (tmp : Path) (name : String) : Path := tmp ++ [name] ++ ["indices.bin"]

/-- the file system after spilling -/
def spilled (fs : FS) (tmp : Path) (name : String) (pairs : List (H × Nat)) : FS :=
  ((fs.set (tmp ++ [name]) (some .dir)).set (hashesPath tmp name)
    (some (.file (pairs.flatMap fun q => toBytes 8 q.1.toNat)))).set (indicesPath tmp name)
    (some (.file (pairs.flatMap fun q => toBytes 4 q.2)))

theorem path_ne (tmp : Path) (name : String) : hashesPath tmp name ≠ indicesPath tmp name ∧
    hashesPath tmp name ≠ tmp ++ [name] ∧ indicesPath tmp name ≠ tmp ++ [name] := by
  unfold hashesPath indicesPath
  refine ⟨?_, ?_, ?_⟩ <;> intro h
  · have := List.append_cancel_left h; simp at this
  · have := congrArg List.length h; simp at this
  · have := congrArg List.length h; simp at this

theorem fromPairsToDisk_ok (fs : FS) (hwf : fs.WF) (tmp : Path) (name : String) (ht : fs tmp = some .dir)
    (hn : fs (tmp ++ [name]) = none) (pairs : List (H × Nat)) :
    Repetition.fromPairsToDisk fs tmp name pairs =
      .ok (spilled fs tmp name pairs, .onDisk pairs.length (hashesPath tmp name) (indicesPath tmp name)) := by
  obtain ⟨n1, n2, n3⟩ := path_ne tmp name
  have c1 : fs (hashesPath tmp name) = none := by
    by_contra hc
    have := hwf _ (by simp [hashesPath]) hc
    unfold hashesPath at this
    rw [List.dropLast_concat, hn] at this
    cases this
  have c2 : fs (indicesPath tmp name) = none := by
    by_contra hc
    have := hwf _ (by simp [indicesPath]) hc
    unfold indicesPath at this
    rw [List.dropLast_concat, hn] at this
    cases this
  have d1 : (hashesPath tmp name).dropLast = tmp ++ [name] := by unfold hashesPath; exact List.dropLast_concat
  have d2 : (indicesPath tmp name).dropLast = tmp ++ [name] := by unfold indicesPath; exact List.dropLast_concat
  unfold Repetition.fromPairsToDisk
  dsimp only
  have e1 : FS.createDir fs (tmp ++ [name]) = .ok (fs.set (tmp ++ [name]) (some .dir)) := by
    unfold FS.createDir; rw [List.dropLast_concat, hn, ht]
  have e2 : FS.writeFile (fs.set (tmp ++ [name]) (some .dir)) (hashesPath tmp name)
      (pairs.flatMap fun q => toBytes 8 q.1.toNat) = .ok ((fs.set (tmp ++ [name]) (some .dir)).set (hashesPath tmp name)
        (some (.file (pairs.flatMap fun q => toBytes 8 q.1.toNat)))) := by
    unfold FS.writeFile; rw [FS.set_ne _ _ n2, c1, d1, FS.set_self]
  have e3 : FS.writeFile ((fs.set (tmp ++ [name]) (some .dir)).set (hashesPath tmp name)
      (some (.file (pairs.flatMap fun q => toBytes 8 q.1.toNat)))) (indicesPath tmp name)
      (pairs.flatMap fun q => toBytes 4 q.2) = .ok (spilled fs tmp name pairs) := by
    unfold FS.writeFile; rw [FS.set_ne _ _ n1.symm, FS.set_ne _ _ n3, c2, d2, FS.set_ne _ _ n2.symm, FS.set_self]; rfl
  rw [e1, hn]
  show (do
    let fs ← FS.writeFile (fs.set (tmp ++ [name]) (some .dir)) (hashesPath tmp name) _
    let fs ← FS.writeFile fs (indicesPath tmp name) (pairs.flatMap fun (q : H × Nat) => toBytes 4 q.2)
    return (fs, Repetition.onDisk pairs.length (hashesPath tmp name) (indicesPath tmp name))) = _
  rw [e2]
  show (do
    let fs ← FS.writeFile _ (indicesPath tmp name) (pairs.flatMap fun (q : H × Nat) => toBytes 4 q.2)
    return (fs, Repetition.onDisk pairs.length (hashesPath tmp name) (indicesPath tmp name))) = _
  rw [e3]
  rfl

theorem spilled_hashes (fs : FS) (tmp : Path) (name : String) (pairs : List (H × Nat)) :
    spilled fs tmp name pairs (hashesPath tmp name) = some (.file (pairs.flatMap fun q => toBytes 8 q.1.toNat)) := by
  obtain ⟨n1, n2, n3⟩ := path_ne tmp name
  unfold spilled; rw [FS.set_ne _ _ n1, FS.set_self]

theorem spilled_indices (fs : FS) (tmp : Path) (name : String) (pairs : List (H × Nat)) :
    spilled fs tmp name pairs (indicesPath tmp name) = some (.file (pairs.flatMap fun q => toBytes 4 q.2)) := by
  unfold spilled; rw [FS.set_self]

theorem spilled_dir (fs : FS) (tmp : Path) (name : String) (pairs : List (H × Nat)) :
    spilled fs tmp name pairs (tmp ++ [name]) = some .dir := by
  obtain ⟨n1, n2, n3⟩ := path_ne tmp name
  unfold spilled; rw [FS.set_ne _ _ n3.symm, FS.set_ne _ _ n2.symm, FS.set_self]

theorem spilled_other (fs : FS) (tmp : Path) (name : String) (pairs : List (H × Nat)) (q : Path)
    (h1 : q ≠ tmp ++ [name]) (h2 : q ≠ hashesPath tmp name) (h3 : q ≠ indicesPath tmp name) :
    spilled fs tmp name pairs q = fs q := by
  unfold spilled; rw [FS.set_ne _ _ h3, FS.set_ne _ _ h2, FS.set_ne _ _ h1]

end Attimo
