import Verif.CopyDir.Model

/-!
# C98: the copy of the template directory, and `~` in paths
-/
namespace Shadow.CopyDir

/-! ## Specification -/

/-- What should be there for the entries of a directory: directories with the mode that `dm` gives, files and what links lead to with their contents and modes. -/
def want (dm : Nat → Nat) (p : Path) : Forest → List (Path × Node)
  | .nil => []
  | .file n c m r => (p ++ [n], .file c m) :: want dm p r
  | .link n (some (c, m)) r => (p ++ [n], .file c m) :: want dm p r
  | .link _ none r => want dm p r
  | .dir n m s r => (p ++ [n], .dir (dm m)) :: (want dm (p ++ [n]) s ++ want dm p r)

/-- Every link leads to a regular file, and everything is in a directory in which (with mode `m`) something can be created. -/
def Fine (dm : Nat → Nat) (w : Nat → Prop) (m : Nat) : Forest → Prop
  | .nil => True
  | .file _ _ _ r => w m ∧ Fine dm w m r
  | .link _ to r => w m ∧ to.isSome ∧ Fine dm w m r
  | .dir _ m' s r => w m ∧ Fine dm w (dm m') s ∧ Fine dm w m r

/-- The names in the directory itself. -/
def Forest.names : Forest → List Nat
  | .nil => []
  | .file n _ _ r => n :: r.names
  | .link n _ r => n :: r.names
  | .dir n _ _ r => n :: r.names

/-- No two entries of a directory have the same name. -/
def Forest.Distinct : Forest → Prop
  | .nil => True
  | .file n _ _ r => n ∉ r.names ∧ r.Distinct
  | .link n _ r => n ∉ r.names ∧ r.Distinct
  | .dir n _ s r => n ∉ r.names ∧ s.Distinct ∧ r.Distinct

/-! ## Lemmas -/

def taskWant (e : Env) (t : Task) : List (Path × Node) := (t.dst, .dir (e.mask t.mode)) :: want e.mask t.dst t.src
def taskFine (e : Env) (t : Task) : Prop := e.canWrite t.parent = true ∧ Fine e.mask (fun m => e.canWrite m = true) (e.mask t.mode) t.src
def size (l : List Task) : Nat := (l.map fun t => 1 + t.src.dirs).sum

theorem entries_some (e : Env) (p : Path) (m : Nat) (f : Forest) : ∀ (out : List (Path × Node)) (st : List Task) (out' : List (Path × Node)) (st' : List Task), entries e p m f out st = some (out', st') →
    (out' ++ st'.flatMap (taskWant e)).Perm (out ++ st.flatMap (taskWant e) ++ want e.mask p f)
    ∧ size st' = size st + f.dirs
    ∧ ((∀ t ∈ st', taskFine e t) ↔ (∀ t ∈ st, taskFine e t) ∧ Fine e.mask (fun m => e.canWrite m = true) m f) := by
  induction f with
  | nil => intro out st out' st' h; simp only [entries, Option.some.injEq, Prod.mk.injEq] at h; obtain ⟨rfl, rfl⟩ := h; simp [want, Forest.dirs, Fine]
  | file n c fm r ih =>
    intro out st out' st' h
    simp only [entries] at h
    split at h
    · rename_i hw
      obtain ⟨a, b, d⟩ := ih _ _ _ _ h
      refine ⟨a.trans ?_, by simpa [Forest.dirs] using b, by rw [d]; simp [Fine, hw]⟩
      simp only [want, List.append_assoc, List.singleton_append]
      refine List.Perm.append_left out ?_
      exact List.perm_middle.symm
    · cases h
  | link n to r ih =>
    intro out st out' st' h
    cases to with
    | none => simp [entries] at h
    | some q =>
      obtain ⟨c, fm⟩ := q
      simp only [entries] at h
      split at h
      · rename_i hw
        obtain ⟨a, b, d⟩ := ih _ _ _ _ h
        refine ⟨a.trans ?_, by simpa [Forest.dirs] using b, by rw [d]; simp [Fine, hw]⟩
        simp only [want, List.append_assoc, List.singleton_append]
        refine List.Perm.append_left out ?_
        exact List.perm_middle.symm
      · cases h
  | dir n dm s r ihs ih =>
    intro out st out' st' h
    simp only [entries] at h
    obtain ⟨a, b, d⟩ := ih _ _ _ _ h
    refine ⟨a.trans ?_, by simp [Forest.dirs, size] at b ⊢; omega, ?_⟩
    · simp only [want, List.append_assoc, List.flatMap_cons]
      refine List.Perm.append_left out ?_
      have := (List.perm_append_comm (l₁ := taskWant e ⟨p ++ [n], m, dm, s⟩) (l₂ := st.flatMap (taskWant e))).append_right (want e.mask p r)
      simpa [taskWant] using this
    · rw [d]
      simp only [List.mem_cons, forall_eq_or_imp, taskFine, Fine]
      constructor
      · rintro ⟨⟨⟨x, y⟩, z⟩, w⟩; exact ⟨z, x, y, w⟩
      · rintro ⟨z, x, y, w⟩; exact ⟨⟨⟨x, y⟩, z⟩, w⟩

theorem entries_none (e : Env) (p : Path) (m : Nat) (f : Forest) : ∀ (out : List (Path × Node)) (st : List Task), entries e p m f out st = none → ¬ Fine e.mask (fun m => e.canWrite m = true) m f := by
  induction f with
  | nil => intro out st h; simp [entries] at h
  | file n c fm r ih =>
    intro out st h
    simp only [entries] at h
    split at h
    · intro hf; exact ih _ _ h hf.2
    · rename_i hw; intro hf; exact hw hf.1
  | link n to r ih =>
    intro out st h
    cases to with
    | none => intro hf; simp [Fine] at hf
    | some q =>
      simp only [entries] at h
      split at h
      · intro hf; exact ih _ _ h hf.2.2
      · rename_i hw; intro hf; exact hw hf.1
  | dir n dm s r ihs ih =>
    intro out st h
    simp only [entries] at h
    intro hf; exact ih _ _ h hf.2.2

theorem loop_spec (e : Env) : ∀ (k : Nat) (out : List (Path × Node)) (st : List Task), size st ≤ k →
    (∀ out', loop e k out st = some out' → out'.Perm (out ++ st.flatMap (taskWant e)) ∧ ∀ t ∈ st, taskFine e t)
    ∧ (loop e k out st = none → ¬ ∀ t ∈ st, taskFine e t) := by
  intro k
  induction k with
  | zero =>
    intro out st hk
    cases st with
    | nil => simp [loop]
    | cons t st => simp [size] at hk
  | succ k ih =>
    intro out st hk
    cases st with
    | nil => simp [loop]
    | cons t st =>
      simp only [loop]
      split
      · rename_i hw
        split
        · rename_i hn
          refine ⟨by simp, fun _ hf => entries_none _ _ _ _ _ _ hn (hf t (by simp)).2⟩
        · rename_i o2 s2 hs
          obtain ⟨a, b, d⟩ := entries_some _ _ _ _ _ _ _ _ hs
          have hk2 : size s2 ≤ k := by simp [size] at hk b ⊢; omega
          obtain ⟨i1, i2⟩ := ih o2 s2 hk2
          constructor
          · intro out' h
            obtain ⟨j1, j2⟩ := i1 out' h
            refine ⟨j1.trans (a.trans ?_), ?_⟩
            · simp only [List.append_assoc, List.flatMap_cons, List.singleton_append]
              refine List.Perm.append_left out ?_
              simp only [taskWant, List.cons_append]
              exact (List.perm_append_comm).cons _
            · have := d.1 j2
              intro t' ht'
              simp only [List.mem_cons] at ht'
              rcases ht' with rfl | ht'
              · exact ⟨hw, this.2⟩
              · exact this.1 t' ht'
          · intro h hf
            exact i2 h (d.2 ⟨fun t' ht' => hf t' (by simp [ht']), (hf t (by simp)).2⟩)
      · rename_i hw
        exact ⟨by simp, fun _ hf => hw (hf t (by simp)).1⟩

theorem want_mem (dm : Nat → Nat) (f : Forest) : ∀ (p : Path) (x : Path × Node), x ∈ want dm p f → ∃ n q, n ∈ f.names ∧ x.1 = p ++ n :: q := by
  induction f with
  | nil => intro p x h; simp [want] at h
  | file n c m r ih =>
    intro p x h
    simp only [want, List.mem_cons] at h
    rcases h with rfl | h
    · exact ⟨n, [], by simp [Forest.names], rfl⟩
    · obtain ⟨a, q, h1, h2⟩ := ih p x h; exact ⟨a, q, by simp [Forest.names, h1], h2⟩
  | link n to r ih =>
    intro p x h
    cases to with
    | none => obtain ⟨a, q, h1, h2⟩ := ih p x h; exact ⟨a, q, by simp [Forest.names, h1], h2⟩
    | some y =>
      simp only [want, List.mem_cons] at h
      rcases h with rfl | h
      · exact ⟨n, [], by simp [Forest.names], rfl⟩
      · obtain ⟨a, q, h1, h2⟩ := ih p x h; exact ⟨a, q, by simp [Forest.names, h1], h2⟩
  | dir n m s r ihs ih =>
    intro p x h
    simp only [want, List.mem_cons, List.mem_append] at h
    rcases h with rfl | h | h
    · exact ⟨n, [], by simp [Forest.names], rfl⟩
    · obtain ⟨a, q, h1, h2⟩ := ihs _ x h; exact ⟨n, a :: q, by simp [Forest.names], by simp [h2]⟩
    · obtain ⟨a, q, h1, h2⟩ := ih p x h; exact ⟨a, q, by simp [Forest.names, h1], h2⟩

theorem fresh (dm : Nat → Nat) (p q : Path) (n : Nat) (r : Forest) (h : n ∉ r.names) : p ++ n :: q ∉ (want dm p r).map (·.1) := by
  intro hm
  obtain ⟨x, h1, h2⟩ := List.mem_map.1 hm
  obtain ⟨a, q', h3, h4⟩ := want_mem dm r p x h1
  rw [h4] at h2
  simp at h2
  exact h (h2.1 ▸ h3)

theorem want_nodup (dm : Nat → Nat) (f : Forest) : ∀ p : Path, f.Distinct → ((want dm p f).map (·.1)).Nodup := by
  induction f with
  | nil => intro p h; simp [want]
  | file n c m r ih => intro p h; simp only [want, List.map_cons, List.nodup_cons]; exact ⟨fresh dm p [] n r h.1, ih p h.2⟩
  | link n to r ih =>
    intro p h
    cases to with
    | none => exact ih p h.2
    | some y => simp only [want, List.map_cons, List.nodup_cons]; exact ⟨fresh dm p [] n r h.1, ih p h.2⟩
  | dir n m s r ihs ih =>
    intro p h
    simp only [want, List.map_cons, List.nodup_cons, List.map_append, List.mem_append, not_or, List.nodup_append]
    refine ⟨⟨?_, fresh dm p [] n r h.1⟩, ihs _ h.2.1, ih p h.2.2, ?_⟩
    · intro hm
      obtain ⟨x, h1, h2⟩ := List.mem_map.1 hm
      obtain ⟨a, q', h3, h4⟩ := want_mem dm s _ x h1
      rw [h4] at h2
      simp at h2
    · intro a ha b hb hab
      subst hab
      obtain ⟨x, h1, h2⟩ := List.mem_map.1 ha
      obtain ⟨y, q', h3, h4⟩ := want_mem dm s _ x h1
      refine fresh dm p (y :: q') n r h.1 ?_
      have : a = p ++ n :: y :: q' := by rw [← h2, h4]; simp
      exact this ▸ hb

/-! ## Theorems -/

/-- The mode of a new directory: the bits of the source that are not in the umask. -/
def Masked (umask : Nat) (f : Nat → Nat) : Prop := ∀ m i : Nat, (f m).testBit i = (m.testBit i && decide (i < 12) && !umask.testBit i)

theorem mask_bits (e : Env) : Masked e.umask e.mask := by
  intro m i
  have h1 : (4096 : Nat) = 2 ^ 12 := rfl
  have h2 : (4095 : Nat) = 2 ^ 12 - 1 := rfl
  simp only [Env.mask, h1, h2, Nat.testBit_and, Nat.testBit_xor, Nat.testBit_mod_two_pow, Nat.testBit_two_pow_sub_one]
  by_cases hi : i < 12 <;> simp [hi]

theorem masked_unique (u : Nat) (f g : Nat → Nat) (hf : Masked u f) (hg : Masked u g) : f = g := by
  funext m
  exact Nat.eq_of_testBit_eq fun i => (hf m i).trans (hg m i).symm

/-- When the copy succeeds, what is created is the target directory and, at the same relative path, everything in the source: every directory with its mode less the umask, every file (or what a link leads to) with its contents
and its mode. There is nothing else, and nothing twice. For trees of every depth and width and all orders of the entries. -/
theorem C98_copy (e : Env) (parent mode : Nat) (src : Forest) (out : List (Path × Node)) (h : copyAll e parent mode src = some out) (dm : Nat → Nat) (hdm : Masked e.umask dm) :
    out.Perm (([], .dir (dm mode)) :: want dm [] src) := by
  rw [masked_unique _ _ _ hdm (mask_bits e)]
  have := ((loop_spec e (1 + src.dirs) [] [⟨[], parent, mode, src⟩] (by simp [size])).1 out h).1
  simpa [taskWant] using this

/-- Nothing is created twice. -/
theorem C98_once (e : Env) (parent mode : Nat) (src : Forest) (out : List (Path × Node)) (h : copyAll e parent mode src = some out) (hd : src.Distinct) : (out.map (·.1)).Nodup := by
  rw [((C98_copy e parent mode src out h e.mask (mask_bits e)).map (·.1)).nodup_iff]
  simp only [List.map_cons, List.nodup_cons]
  refine ⟨?_, want_nodup _ _ _ hd⟩
  intro hm
  obtain ⟨x, h1, h2⟩ := List.mem_map.1 hm
  obtain ⟨a, q', h3, h4⟩ := want_mem _ _ _ x h1
  rw [h4] at h2
  simp at h2

/-- The copy succeeds exactly if every link leads to a regular file and, without privileges, every directory with something in it (and the one above the target) can be written and searched by its owner after the umask. -/
theorem C98_succeeds (e : Env) (parent mode : Nat) (src : Forest) (dm : Nat → Nat) (hdm : Masked e.umask dm) :
    (∃ out, copyAll e parent mode src = some out) ↔
      (e.priv = true ∨ parent &&& 0o300 = 0o300) ∧ Fine dm (fun m => e.priv = true ∨ m &&& 0o300 = 0o300) (dm mode) src := by
  rw [masked_unique _ _ _ hdm (mask_bits e)]
  have hw : (fun m => e.canWrite m = true) = (fun m => e.priv = true ∨ m &&& 0o300 = 0o300) := by funext m; simp [Env.canWrite]
  have hs := loop_spec e (1 + src.dirs) [] [⟨[], parent, mode, src⟩] (by simp [size])
  have ht : (∀ t ∈ [(⟨[], parent, mode, src⟩ : Task)], taskFine e t) ↔ (e.priv = true ∨ parent &&& 0o300 = 0o300) ∧ Fine e.mask (fun m => e.priv = true ∨ m &&& 0o300 = 0o300) (e.mask mode) src := by
    simp only [List.mem_singleton, forall_eq, taskFine]
    rw [hw]; simp [Env.canWrite]
  rw [← ht]
  constructor
  · rintro ⟨out, h⟩; exact (hs.1 out h).2
  · intro hf
    cases h : copyAll e parent mode src with
    | some out => exact ⟨out, rfl⟩
    | none => exact absurd hf (hs.2 h)

/-- A mode with none of the bits of the umask is kept. -/
theorem C98_modes (u : Nat) (f : Nat → Nat) (h : Masked u f) (m : Nat) (hm : m < 4096) (hu : m &&& u = 0) : f m = m := by
  apply Nat.eq_of_testBit_eq
  intro i
  rw [h m i]
  have h1 : (m &&& u).testBit i = false := by rw [hu]; simp
  rw [Nat.testBit_and] at h1
  by_cases hi : i < 12
  · cases hb : m.testBit i <;> simp_all
  · have : m.testBit i = false := Nat.testBit_lt_two_pow (Nat.lt_of_lt_of_le hm (Nat.pow_le_pow_right (n := 2) (by omega) (by omega : 12 ≤ i)))
    simp [this]

/-! ### Findings -/

/-- "Permissions will be preserved" (utility/mod.rs:247) does not hold for directories: mode 0775 becomes 0755 with the usual umask; the file in it keeps its mode 0664. -/
theorem C98_umask_changes_directories : copyAll ⟨0o022, false⟩ 0o755 0o755 (.dir 1 0o775 (.file 2 7 0o664 .nil) .nil)
    = some [([], .dir 0o755), ([1], .dir 0o755), ([1, 2], .file 7 0o664)] := by decide +kernel

/-- A directory with a file that nobody may write (0555) cannot be copied without privileges: the new one is already read-only when the file is to be put in it. -/
theorem C98_read_only_directory_fails : copyAll ⟨0o022, false⟩ 0o755 0o755 (.dir 1 0o555 (.file 2 7 0o644 .nil) .nil) = none
    ∧ (copyAll ⟨0o022, true⟩ 0o755 0o755 (.dir 1 0o555 (.file 2 7 0o644 .nil) .nil)).isSome := by decide +kernel

/-- A link to a file becomes a file; one link to a directory (or to nothing) makes the whole copy fail. -/
theorem C98_links : copyAll ⟨0o022, true⟩ 0o755 0o755 (.link 1 (some (7, 0o644)) .nil) = some [([], .dir 0o755), ([1], .file 7 0o644)]
    ∧ copyAll ⟨0o022, true⟩ 0o755 0o755 (.file 1 7 0o644 (.link 2 none .nil)) = none := by decide +kernel

/-- The hypotheses are met by a tree with files and directories in directories. -/
theorem C98_example : (Forest.dir 1 0o755 (.dir 2 0o700 (.file 3 8 0o600 .nil) (.file 4 9 0o644 .nil)) (.file 5 1 0o755 (.dir 6 0o555 .nil .nil))).Distinct
    ∧ copyAll ⟨0o022, false⟩ 0o755 0o755 (.dir 1 0o755 (.dir 2 0o700 (.file 3 8 0o600 .nil) (.file 4 9 0o644 .nil)) (.file 5 1 0o755 (.dir 6 0o555 .nil .nil)))
      = some [([], .dir 0o755), ([5], .file 1 0o755), ([6], .dir 0o555), ([1], .dir 0o755), ([1, 4], .file 9 0o644), ([1, 2], .dir 0o700), ([1, 2, 3], .file 8 0o600)] :=
  ⟨by simp [Forest.Distinct, Forest.names], by decide +kernel⟩

/-! ### `~` -/

theorem splitSlash_none (l : List Char) (h : '/' ∉ l) : splitSlash l = none := by
  induction l with
  | nil => rfl
  | cons c l ih => simp at h; simp [splitSlash, ih h.2, Ne.symm h.1]

theorem splitSlash_some (u r : List Char) (h : '/' ∉ u) : splitSlash (u ++ '/' :: r) = some (u, r) := by
  induction u with
  | nil => simp [splitSlash]
  | cons c l ih => simp at h; simp [splitSlash, ih h.2, Ne.symm h.1]

/-- `~/rest` is `rest` in the home directory. -/
theorem C98_tilde_home (h r : List Char) (hh : h ≠ []) (hl : h.getLast? ≠ some '/') (hr : r.head? ≠ some '/') : tilde (some h) ('~' :: '/' :: r) = h ++ '/' :: r := by
  have h0 : splitSlash ('/' :: r) = some ([], r) := splitSlash_some [] r (by simp)
  simp [tilde, h0, push, hr, hh, hl]

/-- `~user/rest` is `rest` in `/home/user`, whatever the home directory is. -/
theorem C98_tilde_user (home : Option (List Char)) (u r : List Char) (hu : u ≠ []) (hs : '/' ∉ u) (h1 : u.head? ≠ some '+') (h2 : u.head? ≠ some '-') (hr : r.head? ≠ some '/') :
    tilde home ('~' :: (u ++ '/' :: r)) = "/home/".toList ++ u ++ '/' :: r := by
  have h0 := splitSlash_some u r hs
  cases u with
  | nil => exact absurd rfl hu
  | cons c u =>
    simp at h1 h2 hs
    have hl : (c :: u).getLast? ≠ some '/' := by
      intro hc
      have := List.mem_of_getLast? hc
      simp at this
      rcases this with x | x
      · exact hs.1 x
      · exact hs.2 x
    have h3 : ("/home".toList ++ '/' :: c :: u).getLast? ≠ some '/' := by
      rw [List.getLast?_append, List.getLast?_cons_cons]
      cases hq : (c :: u).getLast? with
      | none => simp at hq
      | some q => intro hc; simp at hc; exact hl (by rw [hq, hc])
    simp only [tilde, h0, Option.getD_some, h1, h2, or_self, if_false]
    have e1 : push [] "/home".toList = "/home".toList := by decide
    have e2 : push "/home".toList (c :: u) = "/home".toList ++ '/' :: c :: u := by
      have : "/home".toList ≠ [] ∧ "/home".toList.getLast? ≠ some '/' := by decide
      simp only [push, List.head?_cons, Option.some.injEq, Ne.symm hs.1, if_false, this.1, this.2, or_self]
    rw [e1, e2]
    simp only [push, hr, h3, if_false, or_false]
    simp

/-- Other paths are unchanged. -/
theorem C98_tilde_other (home : Option (List Char)) (p : List Char) (h : p.head? ≠ some '~') : tilde home p = p := by
  unfold tilde
  split
  · simp at h
  · rfl

/-- What is not supported is unchanged: `~+` and `~-`, and `~` without a home directory. -/
theorem C98_tilde_unsupported (home : Option (List Char)) (x : List Char) : tilde home ('~' :: '+' :: x) = '~' :: '+' :: x ∧ tilde home ('~' :: '-' :: x) = '~' :: '-' :: x
    ∧ tilde none ('~' :: '/' :: x) = '~' :: '/' :: x ∧ tilde none ['~'] = ['~'] := by
  refine ⟨?_, ?_, ?_, rfl⟩
  · cases h : splitSlash x <;> simp [tilde, splitSlash, h]
  · cases h : splitSlash x <;> simp [tilde, splitSlash, h]
  · simp [tilde, splitSlash]

/-- A second slash loses the home directory: `~//x` is `/x`. -/
theorem C98_tilde_double_slash (h r : List Char) : tilde (some h) ('~' :: '/' :: '/' :: r) = '/' :: r := by
  have h0 : splitSlash ('/' :: '/' :: r) = some ([], '/' :: r) := splitSlash_some [] _ (by simp)
  simp [tilde, h0, push]

theorem C98_tilde_example : tilde (some "/root".toList) "~/a/b".toList = "/root/a/b".toList ∧ tilde none "~ann/a".toList = "/home/ann/a".toList ∧ tilde none "a/~".toList = "a/~".toList := by decide +kernel

end Shadow.CopyDir
