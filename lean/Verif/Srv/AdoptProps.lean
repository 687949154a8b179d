import Verif.Srv.Adopt

/-!
# The address and the listeners of a server agree with what the calls answered (C69)
-/

namespace Kasync.Adopt

/-! ## Vocabulary of the statements -/

/-- The path somebody reads at `sun_path` (`ksocket_unix_path`): the bytes before the first zero. -/
def pathOf (d : List Nat) : List Nat := (d.drop 2).takeWhile (· != 0)

/-- The server's address is `a`: its first bytes are those of `a`. -/
def Holds (d a : List Nat) : Prop := d.take a.length = a

/-! ## Helpers -/

theorem over_length (d bs : List Nat) (h : bs.length ≤ d.length) : (over d bs).length = d.length := by
  unfold over; rw [List.length_append, List.length_drop]; omega

theorem over_get (d bs : List Nat) (j : Nat) : (over d bs)[j]? = if j < bs.length then bs[j]? else d[j]? := by
  unfold over
  rw [List.getElem?_append]
  split
  · rfl
  · rw [List.getElem?_drop, show bs.length + (j - bs.length) = j by omega]

theorem over_holds (d bs : List Nat) : Holds (over d bs) bs := by
  unfold Holds over; simp

theorem family_over (d bs : List Nat) (h : 2 ≤ bs.length) : family (over d bs) = family bs := by
  unfold family; rw [over_get, over_get, if_pos (by omega), if_pos (by omega)]

theorem family_take (bs : List Nat) (n : Nat) (h : 2 ≤ n) : family (bs.take n) = family bs := by
  unfold family; rw [List.getElem?_take, List.getElem?_take, if_pos (by omega), if_pos (by omega)]

theorem addrPort_over (d bs : List Nat) (h : 4 ≤ bs.length) : addrPort (over d bs) = addrPort bs := by
  have h2 : (over d bs)[2]? = bs[2]? := by rw [over_get, if_pos (by omega)]
  have h3 : (over d bs)[3]? = bs[3]? := by rw [over_get, if_pos (by omega)]
  unfold addrPort
  rw [family_over _ _ (by omega), h2, h3]

theorem addrPort_take (bs : List Nat) (n : Nat) (h : 4 ≤ n) : addrPort (bs.take n) = addrPort bs := by
  have h2 : (bs.take n)[2]? = bs[2]? := by rw [List.getElem?_take, if_pos (by omega)]
  have h3 : (bs.take n)[3]? = bs[3]? := by rw [List.getElem?_take, if_pos (by omega)]
  unfold addrPort
  rw [family_take _ _ (by omega), h2, h3]

/-- `getsockname` leaves everything but the address. -/
theorem gsn_some {s s1 : St} {n len : Nat} (h : getsockname s n len = some s1) :
    ∃ k, s.fds n = some k ∧ s1 = { s with addr := over s.addr (k.name.take len) } := by
  unfold getsockname at h
  split at h
  · cases h
  · rename_i k hk; cases h; exact ⟨k, hk, rfl⟩

/-! ## Binding -/

/-- **C69.** `kserver_bind` succeeds exactly for a path or a numeric host on a server that does not lack its TLS context; then the server has this address and its Unix flag says whether it is
a path; if it fails nothing changes.  Listeners, references and descriptors are not touched. -/
theorem bind_exact (s : St) (ip : Ip) (p : Nat) (need : Bool) :
    let r := bind s ip p need
    (r.2 = true ↔ need = false ∧ ip ≠ .bad) ∧ (r.2 = false → r.1 = s) ∧
    (r.2 = true → ∀ h, ip = .host h → Holds r.1.addr (hostAddr h p) ∧ r.1.unix = false) ∧
    (r.2 = true → ∀ q, ip = .path q → r.1.unix = true) ∧
    r.1.ls = s.ls ∧ r.1.refs = s.refs ∧ r.1.fds = s.fds ∧ r.1.start = s.start := by
  unfold bind
  cases need with
  | true => simp
  | false =>
    simp only [Bool.false_eq_true, if_false]
    cases ip with
    | path q =>
      refine ⟨by simp, by simp, by simp, fun _ q' hq => ?_, rfl, rfl, rfl, rfl⟩
      show (family (over s.addr (unixAddr q)) == 1) = true
      rw [family_over _ _ (by simp [unixAddr])]; simp [family, unixAddr]
    | host h =>
      refine ⟨by simp, by simp, fun _ h' hh => ?_, by simp, rfl, rfl, rfl, rfl⟩
      cases hh
      refine ⟨over_holds _ _, ?_⟩
      show (family (over s.addr (hostAddr h p)) == 1) = false
      rw [family_over _ _ (by cases h <;> simp [hostAddr])]
      cases h <;> simp [family, hostAddr]
    | bad => simp

/-- **C69.** After binding to a host the server's port is the one asked for. -/
theorem bind_port (s : St) (h : Host) (p : Nat) (hp : p < 65536) : addrPort (bind s (.host h) p false).1.addr = p := by
  show addrPort (over s.addr (hostAddr h p)) = p
  rw [addrPort_over _ _ (by cases h <;> simp [hostAddr, port2])]
  cases h <;> simp [addrPort, family, hostAddr, port2] <;> omega

theorem takeWhile_path (path rest : List Nat) (hz : ∀ b ∈ path, b ≠ 0) : (path ++ 0 :: rest).takeWhile (· != 0) = path := by
  induction path with
  | nil => simp
  | cons a l ih =>
    rw [List.cons_append, List.takeWhile_cons, if_pos (by simpa using hz a (by simp)), ih (fun b hb => hz b (by simp [hb]))]

/-- **C69.** After binding to a path that fits, the path is read back. -/
theorem bind_path (s : St) (q : List Nat) (p : Nat) (hz : ∀ b ∈ q, b ≠ 0) (hl : q.length < 108) : pathOf (bind s (.path q) p false).1.addr = q := by
  show ((over s.addr (unixAddr q)).drop 2).takeWhile (· != 0) = q
  have : (over s.addr (unixAddr q)).drop 2 = q ++ 0 :: (List.replicate (107 - q.length) 0 ++ s.addr.drop 110) := by
    have e : (unixAddr q).length = 110 := by simp [unixAddr]; omega
    unfold over
    rw [e]
    unfold unixAddr
    rw [List.take_of_length_le (by omega), show 108 - q.length = (107 - q.length) + 1 by omega, List.replicate_succ]
    simp
  rw [this, takeWhile_path _ _ hz]

/-! ## Adopting a socket -/

/-- **C69.** `kserver_open_exsit` succeeds exactly if the descriptor is open and the selector takes the listener.  Without an open descriptor nothing changes.  On success the server is started; if the
selector accepts, the descriptor is its new last listener, with one more reference, and nothing else changed but the address; if it does not, the descriptor is closed and listeners and
references are as before. -/
theorem adopt_result (s : St) (n : Nat) (lis acc : Bool) (hn : n ∉ s.ls) :
    let r := openExist 28 s n lis acc
    (r.2 = true ↔ s.fds n ≠ none ∧ lis = true) ∧ (s.fds n = none → r.1 = s) ∧
    (r.2 = true → r.1.start = true ∧
      (acc = true → r.1.ls = s.ls ++ [n] ∧ r.1.refs = s.refs + 1 ∧ r.1.fds = s.fds) ∧
      (acc = false → r.1.ls = s.ls ∧ r.1.refs = s.refs ∧ r.1.fds n = none ∧ ∀ m, m ≠ n → r.1.fds m = s.fds m)) := by
  unfold openExist getsockname
  cases hf : s.fds n with
  | none => simp
  | some k =>
    cases lis with
    | false => simp
    | true =>
      refine ⟨by simp, by simp, fun _ => ?_⟩
      cases acc with
      | true => exact ⟨rfl, fun _ => ⟨rfl, rfl, rfl⟩, by simp⟩
      | false =>
        refine ⟨rfl, by simp, fun _ => ⟨?_, ?_, ?_, ?_⟩⟩
        · show (s.ls ++ [n]).erase n = s.ls
          rw [List.erase_append_right _ hn]; simp
        · show s.refs + 1 - 1 = s.refs
          omega
        · show upd s.fds n none n = none
          unfold upd; rw [if_pos rfl]
        · intro m hm
          show upd s.fds n none m = s.fds m
          unfold upd; rw [if_neg hm]

theorem openExist_addr (s : St) (n : Nat) (lis acc : Bool) (k : Sock) (hk : s.fds n = some k) :
    (openExist 28 s n lis acc).1.addr = over s.addr (k.name.take 28) ∧ (openExist 28 s n lis acc).1.unix = (family (over s.addr (k.name.take 28)) == 1) := by
  unfold openExist getsockname
  rw [hk]
  cases lis <;> cases acc <;> exact ⟨rfl, rfl⟩

/-- **C69.** An adopted socket's address, if it fits a `sockaddr_i` (every Internet address does), becomes the server's address, with its port; the Unix flag says whether it is a path. -/
theorem adopt_addr (s : St) (n : Nat) (lis acc : Bool) (k : Sock) (hk : s.fds n = some k) (h2 : 2 ≤ k.name.length) :
    let s' := (openExist 28 s n lis acc).1
    (k.name.length ≤ 28 → Holds s'.addr k.name) ∧ (4 ≤ k.name.length → addrPort s'.addr = addrPort k.name) ∧ family s'.addr = family k.name ∧
    (s'.unix = true ↔ family k.name = 1) := by
  obtain ⟨e1, e2⟩ := openExist_addr s n lis acc k hk
  have hf : family (over s.addr (k.name.take 28)) = family k.name := by
    rw [family_over _ _ (by rw [List.length_take]; omega), family_take _ _ (by omega)]
  simp only [e1, e2, hf]
  refine ⟨fun h => ?_, fun h => ?_, trivial, by simp⟩
  · rw [List.take_of_length_le h]; exact over_holds _ _
  · rw [addrPort_over _ _ (by rw [List.length_take]; omega), addrPort_take _ _ (by omega)]

/-- **C69.** The path of an adopted Unix socket is read back if it has at most 25 bytes. -/
theorem adopt_path (s : St) (n : Nat) (lis acc : Bool) (q : List Nat) (hk : s.fds n = some ⟨[1, 0] ++ q ++ [0]⟩) (hz : ∀ b ∈ q, b ≠ 0) (hl : q.length ≤ 25) :
    pathOf (openExist 28 s n lis acc).1.addr = q := by
  rw [(openExist_addr s n lis acc _ hk).1]
  show ((over s.addr (([1, 0] ++ q ++ [0]).take 28)).drop 2).takeWhile (· != 0) = q
  rw [List.take_of_length_le (by simp; omega)]
  have : (over s.addr ([1, 0] ++ q ++ [0])).drop 2 = q ++ 0 :: s.addr.drop (q.length + 3) := by
    unfold over; simp
  rw [this, takeWhile_path _ _ hz]

/-! ## Listening -/

/-- **C69.** `kfiber_net_listen` gives a listener exactly if the socket could be made; then the server is started and the listener is its last one, with one more reference; without a socket
nothing changes.  An address with a port stays as it is; port 0 is replaced by the port the kernel gave. -/
theorem net_listen_exact (s : St) (sock : Option (Nat × Sock)) :
    let r := netListen s sock
    (r.2.1 = sock.map Prod.fst) ∧ (sock = none → r.1 = s) ∧
    (∀ n k, sock = some (n, k) → r.1.start = true ∧ r.1.ls = s.ls ++ [n] ∧ r.1.refs = s.refs + 1 ∧ r.1.fds = upd s.fds n (some k) ∧ r.1.unix = s.unix ∧
      (addrPort s.addr ≠ 0 → r.1.addr = s.addr) ∧
      (addrPort s.addr = 0 → 4 ≤ k.name.length → family k.name = family s.addr → addrPort r.1.addr = addrPort k.name ∧ family r.1.addr = family s.addr)) := by
  cases sock with
  | none => exact ⟨rfl, fun _ => rfl, by simp⟩
  | some x =>
    obtain ⟨n, k⟩ := x
    refine ⟨rfl, by simp, fun n' k' h => ?_⟩
    simp only [Option.some.injEq, Prod.mk.injEq] at h
    obtain ⟨rfl, rfl⟩ := h
    unfold netListen listenOn
    by_cases hp : addrPort s.addr = 0
    · have hg : getsockname { s with fds := upd s.fds n (some k) } n (addrLen s.addr) =
          some { s with fds := upd s.fds n (some k), addr := over s.addr (k.name.take (addrLen s.addr)) } := by
        unfold getsockname; simp [upd]
      simp only [hp, if_true, hg, Option.getD_some]
      refine ⟨trivial, rfl, rfl, rfl, rfl, by simp, fun _ h4 hf => ?_⟩
      have hlen : 16 ≤ addrLen s.addr := by unfold addrLen; repeat' split
                                            all_goals omega
      show addrPort (over s.addr (k.name.take (addrLen s.addr))) = addrPort k.name ∧ family (over s.addr (k.name.take (addrLen s.addr))) = family s.addr
      rw [addrPort_over _ _ (by rw [List.length_take]; omega), family_over _ _ (by rw [List.length_take]; omega), family_take _ _ (by omega), addrPort_take _ _ (by omega)]
      exact ⟨rfl, hf⟩
    · simp only [if_neg hp]
      exact ⟨trivial, rfl, rfl, rfl, rfl, fun _ => rfl, fun h => absurd h hp⟩

/-- **C69.** One selector of `kserver_open`: it answers true exactly if the socket could be made; the listener is then there exactly if the selector accepts, and otherwise its descriptor is closed
and listeners and references are as before. -/
theorem open_one_exact (s : St) (sock : Option (Nat × Sock)) (acc : Bool) (hn : ∀ n k, sock = some (n, k) → n ∉ s.ls) :
    let r := openOne s sock acc
    (r.2 = sock.isSome) ∧ (sock = none → r.1 = s) ∧
    (∀ n k, sock = some (n, k) → r.1.start = true ∧ (acc = true → r.1.ls = s.ls ++ [n] ∧ r.1.refs = s.refs + 1 ∧ r.1.fds = upd s.fds n (some k)) ∧
      (acc = false → r.1.ls = s.ls ∧ r.1.refs = s.refs ∧ r.1.fds n = none ∧ ∀ m, m ≠ n → r.1.fds m = s.fds m)) := by
  cases sock with
  | none => exact ⟨rfl, fun _ => rfl, by simp⟩
  | some x =>
    obtain ⟨n, k⟩ := x
    refine ⟨rfl, by simp, fun n' k' h => ?_⟩
    simp only [Option.some.injEq, Prod.mk.injEq] at h
    obtain ⟨rfl, rfl⟩ := h
    have hl : ∃ a, listenOn s (some (n, k)) = (add { s with fds := upd s.fds n (some k), addr := a } n, some n) := by
      unfold listenOn
      by_cases hp : addrPort s.addr = 0
      · refine ⟨over s.addr (k.name.take (addrLen s.addr)), ?_⟩
        have hg : getsockname { s with fds := upd s.fds n (some k) } n (addrLen s.addr) =
            some { s with fds := upd s.fds n (some k), addr := over s.addr (k.name.take (addrLen s.addr)) } := by
          unfold getsockname; simp [upd]
        simp only [hp, if_true, hg, Option.getD_some]
      · exact ⟨s.addr, by simp only [if_neg hp]⟩
    obtain ⟨a, hl⟩ := hl
    unfold openOne
    rw [hl]
    cases acc with
    | true => exact ⟨rfl, fun _ => ⟨rfl, rfl, rfl⟩, by simp⟩
    | false =>
      refine ⟨rfl, by simp, fun _ => ⟨?_, ?_, ?_, ?_⟩⟩
      · show (s.ls ++ [n]).erase n = s.ls
        rw [List.erase_append_right _ (hn n k rfl)]; simp
      · show s.refs + 1 - 1 = s.refs
        omega
      · show upd (upd s.fds n (some k)) n none n = none
        unfold upd; simp
      · intro m hm
        show upd (upd s.fds n (some k)) n none m = s.fds m
        unfold upd; simp [hm]

/-! ## Histories -/

/-- The books of a server. -/
structure Books (s : St) : Prop where
  refs : s.refs = 1 + s.ls.length
  nodup : s.ls.Nodup
  opened : ∀ n ∈ s.ls, s.fds n ≠ none
  unix : s.unix = true ↔ family s.addr = 1
  size : s.addr.length = 110

/-- All descriptors have addresses with a family. -/
def Named (s : St) : Prop := ∀ n k, s.fds n = some k → 2 ≤ k.name.length ∧ k.name.length ≤ 110

theorem books_addr {s : St} {a : List Nat} {u : Bool} {st : Bool} (h : Books s) (hs : a.length = 110) (hu : u = true ↔ family a = 1) :
    Books { s with addr := a, unix := u, start := st } := ⟨h.refs, h.nodup, h.opened, hu, hs⟩

theorem books_add {s : St} {n : Nat} (h : Books s) (hn : n ∉ s.ls) (hf : s.fds n ≠ none) : Books (add s n) := by
  refine ⟨?_, ?_, ?_, h.unix, h.size⟩
  · show s.refs + 1 = 1 + (s.ls ++ [n]).length
    rw [h.refs, List.length_append, List.length_singleton]; omega
  · show (s.ls ++ [n]).Nodup
    rw [List.nodup_append]
    refine ⟨h.nodup, by simp, ?_⟩
    intro a ha b hb hab
    rw [List.mem_singleton] at hb
    exact hn (by rw [← hb, ← hab]; exact ha)
  · intro m hm
    have hm : m ∈ s.ls ++ [n] := hm
    rw [List.mem_append, List.mem_singleton] at hm
    rcases hm with hm | rfl
    · exact h.opened m hm
    · exact hf

theorem books_destroy {s : St} {n : Nat} (h : Books s) (hn : n ∈ s.ls) : Books (destroy s n) := by
  refine ⟨?_, h.nodup.erase n, ?_, h.unix, h.size⟩
  · show s.refs - 1 = 1 + (s.ls.erase n).length
    rw [h.refs, List.length_erase_of_mem hn]
    have : 0 < s.ls.length := List.length_pos_of_mem hn
    omega
  · intro m hm
    have hm : m ∈ s.ls.erase n := hm
    rw [List.Nodup.mem_erase_iff h.nodup] at hm
    show upd s.fds n none m ≠ none
    unfold upd; rw [if_neg hm.1]; exact h.opened m hm.2

theorem books_start {s : St} {n : Nat} (acc : Bool) (h : Books s) (hn : n ∈ s.ls) : Books (startAccept s n acc) := by
  unfold startAccept
  cases acc with
  | true => exact h
  | false => exact books_destroy h hn

theorem books_fds {s : St} {n : Nat} {k : Sock} (h : Books s) : Books { s with fds := upd s.fds n (some k) } := by
  refine ⟨h.refs, h.nodup, fun m hm => ?_, h.unix, h.size⟩
  show upd s.fds n (some k) m ≠ none
  unfold upd; split
  · simp
  · exact h.opened m hm

theorem listenOn_books {s : St} {n : Nat} {k : Sock} (h : Books s) (hn : s.fds n = none) (h2 : 2 ≤ k.name.length) (hl : k.name.length ≤ 110) (hf : family k.name = family s.addr) :
    Books (listenOn s (some (n, k))).1 ∧ n ∈ (listenOn s (some (n, k))).1.ls ∧ (listenOn s (some (n, k))).1.fds = upd s.fds n (some k) ∧
      (listenOn s (some (n, k))).2 = some n := by
  have hnl : n ∉ s.ls := fun c => h.opened n c hn
  have hb : Books { s with fds := upd s.fds n (some k) } := books_fds h
  unfold listenOn
  by_cases hp : addrPort s.addr = 0
  · have hg : getsockname { s with fds := upd s.fds n (some k) } n (addrLen s.addr) =
        some { s with fds := upd s.fds n (some k), addr := over s.addr (k.name.take (addrLen s.addr)) } := by
      unfold getsockname; simp [upd]
    simp only [hp, if_true, hg, Option.getD_some]
    have hlen : 16 ≤ addrLen s.addr := by unfold addrLen; repeat' split
                                          all_goals omega
    refine ⟨?_, by simp [add], rfl, trivial⟩
    refine books_add (s := { s with fds := upd s.fds n (some k), addr := over s.addr (k.name.take (addrLen s.addr)) }) ?_ hnl (by simp [upd])
    refine ⟨hb.refs, hb.nodup, hb.opened, ?_, ?_⟩
    · show s.unix = true ↔ family (over s.addr (k.name.take (addrLen s.addr))) = 1
      rw [family_over _ _ (by rw [List.length_take]; omega), family_take _ _ (by omega), hf]; exact h.unix
    · show (over s.addr (k.name.take (addrLen s.addr))).length = 110
      rw [over_length _ _ (by rw [List.length_take, h.size]; omega)]; exact h.size
  · simp only [if_neg hp]
    exact ⟨books_add hb hnl (by simp [upd]), by simp [add], rfl, trivial⟩

theorem named_upd {s : St} {n : Nat} {k : Option Sock} (h : Named s) (hk : ∀ k', k = some k' → 2 ≤ k'.name.length ∧ k'.name.length ≤ 110) (s' : St)
    (e : s'.fds = upd s.fds n k) : Named s' := by
  intro m k' hm
  rw [e] at hm
  unfold upd at hm
  split at hm
  · exact hk k' hm
  · exact h m k' hm

/-- **C69.** In every history of binding, adopting, listening, ending listeners and closing: the server holds one reference of its owner and one per listener, no listener twice, every listener's
descriptor is open, and the Unix flag says whether the server's address is a path. -/
theorem server_books {s : St} (h : Reach 28 s) : Books s := by
  have key : Books s ∧ Named s := by
    induction h with
    | init => exact ⟨⟨rfl, by simp, by simp, by decide, by simp⟩, fun n k hk => by simp at hk⟩
    | step o hr ha ih =>
      rename_i s
      obtain ⟨ih, ihn⟩ := ih
      cases o with
      | bind ip p need =>
        obtain ⟨_, hfalse, _, _, e1, e2, e3, e4⟩ := bind_exact s ip p need
        refine ⟨?_, fun n k hk => ihn n k (by rw [← e3]; exact hk)⟩
        show Books (bind s ip p need).1
        unfold bind
        cases need with
        | true => exact ih
        | false =>
          simp only [Bool.false_eq_true, if_false]
          have go : ∀ a : List Nat, a.length ≤ 110 → Books (setUnix { s with addr := over s.addr a }) := by
            intro a hl
            refine ⟨ih.refs, ih.nodup, ih.opened, by simp [setUnix], ?_⟩
            show (over s.addr a).length = 110
            rw [over_length _ _ (by rw [ih.size]; exact hl)]; exact ih.size
          cases ip with
          | path q => exact go _ (by simp [unixAddr]; omega)
          | host h =>
            cases h with
            | v4 b => exact go _ (by have : b.length = 4 := ha; simp [hostAddr, port2, this])
            | v6 b => exact go _ (by have : b.length = 16 := ha; simp [hostAddr, port2, this])
          | bad => exact ih
      | adopt n lis acc =>
        have hn : n ∉ s.ls := ha
        show Books (openExist 28 s n lis acc).1 ∧ Named (openExist 28 s n lis acc).1
        unfold openExist getsockname
        cases hk : s.fds n with
        | none => exact ⟨ih, ihn⟩
        | some k =>
          have hb : Books (add (setUnix { s with addr := over s.addr (k.name.take 28) }) n) := by
            refine books_add (s := setUnix { s with addr := over s.addr (k.name.take 28) }) ?_ hn (by show s.fds n ≠ none; rw [hk]; simp)
            refine ⟨ih.refs, ih.nodup, ih.opened, by simp [setUnix], ?_⟩
            show (over s.addr (k.name.take 28)).length = 110
            rw [over_length _ _ (by rw [List.length_take, ih.size]; omega)]; exact ih.size
          cases lis with
          | false => exact ⟨hb, ihn⟩
          | true =>
            have hb2 : Books { add (setUnix { s with addr := over s.addr (k.name.take 28) }) n with start := true } := ⟨hb.refs, hb.nodup, hb.opened, hb.unix, hb.size⟩
            refine ⟨books_start acc hb2 (by simp [add]), ?_⟩
            cases acc with
            | true => exact ihn
            | false => exact named_upd (n := n) (k := none) ihn (by simp) _ rfl
      | netListen sock =>
        cases sock with
        | none => exact ⟨ih, ihn⟩
        | some x =>
          obtain ⟨n, k⟩ := x
          obtain ⟨ha1, ha2, ha3, ha4⟩ : s.fds n = none ∧ 2 ≤ k.name.length ∧ k.name.length ≤ 110 ∧ family k.name = family s.addr := ha
          obtain ⟨hb, hm, hfds, hr2⟩ := listenOn_books ih ha1 ha2 ha3 ha4
          show Books (netListen s (some (n, k))).1 ∧ Named (netListen s (some (n, k))).1
          have e : netListen s (some (n, k)) = ({ (listenOn s (some (n, k))).1 with start := true }, some n, 0) := rfl
          rw [e]
          exact ⟨⟨hb.refs, hb.nodup, hb.opened, hb.unix, hb.size⟩, named_upd (n := n) (k := some k) ihn (by rintro k' h; cases h; exact ⟨ha2, ha3⟩) _ hfds⟩
      | openOne sock acc =>
        cases sock with
        | none => exact ⟨ih, ihn⟩
        | some x =>
          obtain ⟨n, k⟩ := x
          obtain ⟨ha1, ha2, ha3, ha4⟩ : s.fds n = none ∧ 2 ≤ k.name.length ∧ k.name.length ≤ 110 ∧ family k.name = family s.addr := ha
          obtain ⟨hb, hm, hfds, hr2⟩ := listenOn_books ih ha1 ha2 ha3 ha4
          show Books (openOne s (some (n, k)) acc).1 ∧ Named (openOne s (some (n, k)) acc).1
          have e : openOne s (some (n, k)) acc = (startAccept { (listenOn s (some (n, k))).1 with start := true } n acc, true) := rfl
          rw [e]
          have hN : Named { (listenOn s (some (n, k))).1 with start := true } :=
            named_upd (n := n) (k := some k) ihn (by rintro k' h; cases h; exact ⟨ha2, ha3⟩) _ hfds
          refine ⟨books_start acc ⟨hb.refs, hb.nodup, hb.opened, hb.unix, hb.size⟩ hm, ?_⟩
          cases acc with
          | true => exact hN
          | false => exact named_upd (n := n) (k := none) hN (by simp) _ rfl
      | destroy n =>
        exact ⟨books_destroy ih ha, named_upd (n := n) (k := none) ihn (by simp) _ rfl⟩
      | close => exact ⟨⟨ih.refs, ih.nodup, ih.opened, ih.unix, ih.size⟩, ihn⟩
      | sock n k =>
        obtain ⟨h1, h2, h3⟩ : s.fds n = none ∧ 2 ≤ k.name.length ∧ k.name.length ≤ 110 := ha
        exact ⟨books_fds ih, named_upd (n := n) (k := some k) ihn (by rintro k' h; cases h; exact ⟨h2, h3⟩) _ rfl⟩
  exact key.1

/-! ## The hypotheses are met -/

/-- A socket bound to 127.0.0.1:8080. -/
def local8080 : Sock := ⟨[2, 0] ++ port2 8080 ++ [127, 0, 0, 1] ++ List.replicate 8 0⟩

/-- A socket bound to a path. -/
def unixSock (q : List Nat) : Sock := ⟨[1, 0] ++ q ++ [0]⟩

/-- A history: bound to port 0, two selectors listen on the port of the first, one listener ends, the server is closed and adopts a socket. -/
def history : List Op :=
  [.bind (.host (.v4 [127, 0, 0, 1])) 0 false, .openOne (some (5, local8080)) true, .openOne (some (6, local8080)) true, .destroy 5, .close, .sock 7 (unixSock [47, 97]), .adopt 7 true true]

/-- The state after a list of calls. -/
def runAll (s : St) (ops : List Op) : St := ops.foldl (step 28) s

instance (s : St) (o : Op) : Decidable (Allowed s o) := by unfold Allowed; split <;> infer_instance

/-- Every call of the list is allowed when it is made. -/
def allAllowed (s : St) : List Op → Bool
  | [] => true
  | o :: os => decide (Allowed s o) && allAllowed (step 28 s o) os

theorem reach_run (ops : List Op) (s : St) (h : Reach 28 s) (ha : allAllowed s ops = true) : Reach 28 (runAll s ops) := by
  induction ops generalizing s with
  | nil => exact h
  | cons o os ih =>
    simp only [allAllowed, Bool.and_eq_true, decide_eq_true_eq] at ha
    exact ih _ (.step o h ha.1) ha.2

example : Reach 28 (runAll {} history) := reach_run history {} .init (by decide +kernel)

example : (runAll {} history).ls = [6, 7] ∧ (runAll {} history).refs = 3 ∧ (runAll {} history).unix = true ∧ pathOf (runAll {} history).addr = [47, 97] ∧
    addrPort (runAll {} (history.take 2)).addr = 8080 := by decide +kernel

/-! ## Findings -/

/-- **Finding (C69).** `kserver_open_exsit` hands `getsockname` the size of a `sockaddr_i` (28 bytes): of a Unix socket's path the server keeps 26 bytes, followed by what was there
before.  On a new server the path is cut silently. -/
theorem adopt_path_cut (n : Nat) (q : List Nat) (lis acc : Bool) (s : St) (hs : s.addr = List.replicate 110 0) (hk : s.fds n = some (unixSock q)) (hz : ∀ b ∈ q, b ≠ 0) (hl : 26 < q.length) :
    pathOf (openExist 28 s n lis acc).1.addr = q.take 26 ∧ pathOf (openExist 28 s n lis acc).1.addr ≠ q := by
  have e : pathOf (openExist 28 s n lis acc).1.addr = q.take 26 := by
    rw [(openExist_addr s n lis acc _ hk).1, hs]
    have ht : ((unixSock q).name.take 28) = [1, 0] ++ q.take 26 := by
      unfold unixSock
      simp only [List.cons_append, List.nil_append, List.take_succ_cons]
      rw [List.take_append_of_le_length (by omega)]
    rw [ht]
    unfold pathOf
    have : (over (List.replicate 110 0) ([1, 0] ++ q.take 26)).drop 2 = q.take 26 ++ 0 :: List.replicate 81 0 := by
      unfold over
      have hl2 : ([1, 0] ++ q.take 26).length = 28 := by simp; omega
      rw [hl2, List.drop_replicate]
      rfl
    rw [this, takeWhile_path _ _ (fun b hb => hz b (List.mem_of_mem_take hb))]
  refine ⟨e, ?_⟩
  rw [e]
  intro c
  have := congrArg List.length c
  rw [List.length_take] at this
  omega

/-- **Finding (C69).** On a server that was bound to a longer path before, the server's path is a mixture that names neither. -/
theorem adopt_path_mixed :
    let s := runAll {} [.bind (.path (List.replicate 40 97)) 0 false, .sock 7 (unixSock (List.replicate 30 98)), .adopt 7 true true]
    pathOf s.addr = List.replicate 26 98 ++ List.replicate 14 97 := by decide +kernel

/-- **Finding (C69).** If the selector refuses the listener, `kserver_open_exsit` answers false, but the descriptor stays in the server's list with a reference, on a server that is not started: nobody accepts
from it, and the caller, who was told that it failed, closes a descriptor the server will close again. -/
theorem adopt_refused_keeps_listener (s : St) (n : Nat) (acc : Bool) (k : Sock) (hk : s.fds n = some k) :
    let r := openExist 28 s n false acc
    r.2 = false ∧ n ∈ r.1.ls ∧ r.1.refs = s.refs + 1 ∧ r.1.start = s.start ∧ r.1.fds n = some k := by
  unfold openExist getsockname
  rw [hk]
  exact ⟨rfl, by simp [add], rfl, rfl, hk⟩

/-- **Finding (C69).** If accepting cannot be started, `kserver_open_exsit` and `kserver_open` have already closed the only listener when they answer true. -/
theorem open_true_without_listener (s : St) (n : Nat) (k : Sock) (hs : s.ls = []) :
    (s.fds n = some k → (openExist 28 s n true false).2 = true ∧ (openExist 28 s n true false).1.ls = [] ∧ (openExist 28 s n true false).1.start = true) ∧
    ((openOne s (some (n, k)) false).2 = true ∧ (openOne s (some (n, k)) false).1.ls = [] ∧ (openOne s (some (n, k)) false).1.start = true) := by
  refine ⟨fun hk => ?_, ?_⟩
  · obtain ⟨h1, _, h3⟩ := adopt_result s n true false (by rw [hs]; simp)
    have ht := h1.mpr ⟨by rw [hk]; simp, rfl⟩
    obtain ⟨h4, _, h5⟩ := h3 ht
    exact ⟨ht, by rw [(h5 rfl).1, hs], h4⟩
  · obtain ⟨h1, _, h3⟩ := open_one_exact s (some (n, k)) false (by rw [hs]; simp)
    obtain ⟨h4, _, h5⟩ := h3 n k rfl
    exact ⟨h1, by rw [(h5 rfl).1, hs], h4⟩

/-- **Finding (C69).** `kfiber_net_listen` answers 0 also when there is no listener. -/
theorem net_listen_zero (s : St) (sock : Option (Nat × Sock)) : (netListen s sock).2.2 = 0 := by
  cases sock <;> rfl

end Kasync.Adopt
