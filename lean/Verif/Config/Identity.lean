import Verif.Registry.Discovery
import Verif.Admin.Commands
import Verif.Meta.Members

/-!
# The address and the identity of a server

* common/util/ip_tool.go:36-160: the address of the machine, the address behind a name.
* common/registry/config.go:22-44: the registered address and the id of a server.
* objectserver/config/config.go:55-61, metaserver/config/config.go:38-54, apiserver/internal/usecase/pool/instance.go:76-83:
  the directories, which are named after the id.
* metaserver/internal/usecase/raftimpl/raft_impl.go:39-107 and metaserver/internal/app/app.go:30: the identity of a metadata
  server in its raft group, and the group it founds when it starts.

Written out from the standard library: the classes of addresses (`net.IP`).  Parameters: what the resolver answers, the local
address the system chooses for a UDP socket, the environment.  hashicorp/raft is written out as far as `BootstrapCluster` decides
whether to accept a configuration.  `filepath.Join` is the pair of its arguments.
-/

namespace Verif.Identity
open Verif Verif.Admin.Commands

/-! ## Addresses -/

/-- An address: four bytes (also when written as an IPv6 address, `To4`), or eight groups of 16 bits. -/
inductive Ip
  | v4 (a b c d : Nat)
  | v6 (g : List Nat)
deriving DecidableEq, Repr

/-- `net.IP.IsLoopback` -/
def Ip.loopback : Ip → Bool
  | .v4 a _ _ _ => a = 127
  | .v6 g => g = [0, 0, 0, 0, 0, 0, 0, 1]

/-- `net.IP.IsPrivate` -/
def Ip.priv : Ip → Bool
  | .v4 a b _ _ => a = 10 || (a = 172 && b / 16 = 1) || (a = 192 && b = 168)
  | .v6 g => g.headD 0 / 512 = 126

/-- `net.IP.IsLinkLocalMulticast` -/
def Ip.linkMulti : Ip → Bool
  | .v4 a b c _ => a = 224 && b = 0 && c = 0
  | .v6 g => g.headD 0 / 256 = 255 && g.headD 0 % 16 = 2

/-- `net.IP.IsLinkLocalUnicast` -/
def Ip.linkUni : Ip → Bool
  | .v4 a b _ _ => a = 169 && b = 254
  | .v6 g => g.headD 0 / 64 = 1018

/-- `To4() != nil` -/
def Ip.is4 : Ip → Bool
  | .v4 .. => true
  | .v6 _ => false

/-- ip_tool.go:152-160 `IsPublicIP` -/
def isPublic (ip : Ip) : Bool :=
  if ip.loopback || ip.linkMulti || ip.linkUni || ip.priv then false else ip.is4

/-- The variables of ip_tool.go:65-72. -/
structure Slots where
  loopback : Option Ip := none
  loopbackV6 : Option Ip := none
  priv : Option Ip := none
  privV6 : Option Ip := none
  ipv6 : Option Ip := none
  ipv4 : Option Ip := none

/-- ip_tool.go:74-90: the body of the loop. -/
def Slots.see (s : Slots) (ip : Ip) : Slots :=
  if ip.loopback then (if ip.is4 then { s with loopback := some ip } else { s with loopbackV6 := some ip })
  else if ip.priv then (if ip.is4 then { s with priv := some ip } else { s with privV6 := some ip })
  else if ip.is4 then { s with ipv4 := some ip }
  else { s with ipv6 := some ip }

/-- ip_tool.go:93-117: the first variable that is set. -/
def Slots.best (s : Slots) : Option Ip :=
  s.ipv4.or (s.priv.or (s.loopback.or (s.ipv6.or (s.privV6.or s.loopbackV6))))

/-- ip_tool.go:65-117: the address that is taken of those a name has. -/
def pick (ips : List Ip) : Option Ip := (ips.foldl Slots.see {}).best

/-- `strings.Cut(s, "://")`: what follows. -/
def afterScheme : Str → Option Str
  | ':' :: '/' :: '/' :: t => some t
  | _ :: t => afterScheme t
  | [] => none

/-- ip_tool.go:41-52 `GetHostFromAddr` -/
def hostFromAddr (addr : Str) : Str :=
  let addr := (afterScheme addr).getD addr
  let addr := match cutOn '/' addr with
    | some (h, _) => if h = [] then addr else h
    | none => addr
  match splitHostPort addr with
  | some (h, _) => h
  | none => addr

/-- ip_tool.go:55-118 `ParseIP`: `literal` is `net.ParseIP`, `resolve` is `net.LookupIP` (none: an error). -/
def parseIp (literal : Str → Option Ip) (resolve : Str → Option (List Ip)) (addr : Str) : Option Ip :=
  match literal (hostFromAddr addr) with
  | some ip => some ip
  | none => match resolve (hostFromAddr addr) with
    | none => none
    | some ips => pick ips

/-- What a machine is like at one moment: the variable SERVER_IP, and the local address of a UDP socket (none: the socket
cannot be made) as text and as address (none: not an address, e.g. with a zone). -/
structure Machine where
  serverIp : Option Str
  dial : Option (Str × Option Ip)

/-- `127.0.0.1` -/
def localhost : Str := "127.0.0.1".toList

/-- ip_tool.go:126-148: the function that is run once. -/
def detect (m : Machine) : Str :=
  match m.serverIp with
  | some v => v
  | none => match m.dial with
    | none => localhost
    | some (text, ip) =>
      if (match ip with | some ip => ip.priv || isPublic ip | none => false) then text else localhost

/-- ip_tool.go:120-150 `DetectServerIP`: `known` is what the `sync.Once` of this process has found so far.  The answer, and what
is known afterwards. -/
def detectOnce (known : Option Str) (m : Machine) : Str × Option Str :=
  match known with
  | some v => (v, some v)
  | none => (detect m, some (detect m))

/-! ## Identity -/

/-- registry/config.go:11-20, the fields that matter here. -/
structure Reg where
  serverIp : Str
  serverId : Str
  name : Str
  port : Str
deriving DecidableEq

/-- ip_tool.go:37-39 `ServerAddress` on a machine where `ip` was detected. -/
def serverAddress (ip port : Str) : Str := joinHostPort ip port

/-- registry/config.go:22-30 `RegisterAddr`; none is the panic. -/
def registerAddr (r : Reg) (ip : Str) : Option Str :=
  if r.port = [] then none
  else if r.serverIp = [] then some (serverAddress ip r.port)
  else some (joinHostPort r.serverIp r.port)

/-- registry/config.go:36-44 `SID`, and the configuration afterwards; none is the panic. -/
def sid (r : Reg) (ip : Str) : Option (Str × Reg) :=
  if r.serverId ≠ [] then some (r.serverId, r)
  else match registerAddr r ip with
    | none => none
    | some a => some (Discovery.defaultSid r.name a, { r with serverId := Discovery.defaultSid r.name a })

/-- objectserver/config/config.go:57-60: the directories of a data server below every mount point. -/
structure DataDirs where
  pathCache : Str × Str
  store : Str × Str
  temp : Str × Str
deriving DecidableEq

def dataDirs (storagePath : Str) (r : Reg) (ip : Str) : Option DataDirs :=
  (sid r ip).map fun p => ⟨(storagePath, p.1 ++ "_path-cache".toList), (storagePath, p.1 ++ "_store".toList),
    (storagePath, p.1 ++ "_store".toList)⟩

/-- What a metadata server is known as: metaserver/config/config.go:42-53, app.go:30, raft_impl.go:43-47, etcd_registry.go:27-35. -/
structure MetaId where
  /-- `DataPath`, also of the raft log -/
  dir : Str × Str
  /-- the id under which it registers and its id in the group -/
  id : Str
  /-- the address it registers -/
  addr : Str
  /-- the address it has in the group -/
  raftAddr : Str
deriving DecidableEq

def metaId (dataDir tmp : Str) (r : Reg) (ip : Str) : Option MetaId :=
  match sid r ip with
  | none => none
  | some (s, r') => match registerAddr r' ip with
    | none => none
    | some a => some ⟨(if dataDir = [] then tmp else dataDir, s), s, a, serverAddress ip r.port⟩

/-- instance.go:76-83: the file of the local performance store of an API server. -/
def perfFile (logDir tmp : Str) (r : Reg) (ip : Str) : Option (Str × Str) :=
  (sid r ip).map fun p => (if logDir = [] then tmp else logDir, p.1 ++ ".perf".toList)

/-! ## Founding a group -/

/-- raft_impl.go:64-86: the members named by the configuration; none is the panic of line 71. -/
def founders (nodes : List Str) (id addr : Str) : Option (List (Str × Str)) :=
  match nodes.mapM Meta.Members.parseNode with
  | none => none
  | some [] => some [(id, addr)]
  | some l => some l

/-- Library raft, `checkConfiguration` for voters: ids and addresses are there and differ, and there is a member. -/
def validConf (l : List (Str × Str)) : Prop :=
  l ≠ [] ∧ (∀ e ∈ l, e.1 ≠ [] ∧ e.2 ≠ []) ∧ (l.map (·.1)).Nodup ∧ (l.map (·.2)).Nodup

instance (l : List (Str × Str)) : Decidable (validConf l) := by unfold validConf; infer_instance

/-- Library raft, `BootstrapCluster` on server `id`: the configuration it has afterwards (none: no configuration yet). -/
def bootstrap (id : Str) (have_ : Option (List (Str × Str))) (l : List (Str × Str)) : Option (List (Str × Str)) :=
  match have_ with
  | some c => some c
  | none => if id ∈ l.map (·.1) ∧ validConf l then some l else none

/-- The outcome of starting the raft of a server. -/
inductive Started
  | disabled
  | panic
  /-- it runs; its configuration, if it has one -/
  | runs (conf : Option (List (Str × Str)))
deriving DecidableEq

/-- raft_impl.go:39-107 `NewRaft`; `stored` is the configuration in its directory. -/
def newRaft (enable boot : Bool) (nodes : List Str) (id addr : Str) (stored : Option (List (Str × Str))) : Started :=
  if enable = false then .disabled
  else if boot = false then .runs stored
  else match founders nodes id addr with
    | none => .panic
    | some l => .runs (bootstrap id stored l)

/-! ## Specification -/

/-- How good an address is: the comment of ip_tool.go:54. -/
def rank (ip : Ip) : Nat :=
  match ip with
  | .v4 .. => if ip.loopback then 2 else if ip.priv then 1 else 0
  | .v6 _ => if ip.loopback then 5 else if ip.priv then 4 else 3

/-- `ip` is the best of the list, and the last one as good. -/
def Best (ips : List Ip) (ip : Ip) : Prop :=
  ∃ a b, ips = a ++ ip :: b ∧ (∀ x ∈ a, rank ip ≤ rank x) ∧ ∀ x ∈ b, rank ip < rank x

/-- The address every server of the network can reach: not of the machine itself and not of the link. -/
def Routable (ip : Ip) : Prop := ip.loopback = false ∧ ip.linkUni = false ∧ ip.linkMulti = false

/-! ## C107: which address -/

/-- The variable of a rank. -/
def Slots.at (s : Slots) : Nat → Option Ip
  | 0 => s.ipv4
  | 1 => s.priv
  | 2 => s.loopback
  | 3 => s.ipv6
  | 4 => s.privV6
  | 5 => s.loopbackV6
  | _ => none

theorem see_at (s : Slots) (ip : Ip) (k : Nat) : (s.see ip).at k = if k = rank ip then some ip else s.at k := by
  unfold Slots.see rank
  cases ip with
  | v4 a b c d =>
    simp only [Ip.is4, if_true]
    by_cases h1 : (Ip.v4 a b c d).loopback = true
    · simp only [h1, if_true]
      match k with
      | 0 | 1 | 2 | 3 | 4 | 5 | _ + 6 => simp [Slots.at]
    · by_cases h2 : (Ip.v4 a b c d).priv = true
      · simp only [h1, h2, if_true, if_false, Bool.false_eq_true]
        match k with
        | 0 | 1 | 2 | 3 | 4 | 5 | _ + 6 => simp [Slots.at]
      · simp only [h1, h2, if_false, Bool.false_eq_true]
        match k with
        | 0 | 1 | 2 | 3 | 4 | 5 | _ + 6 => simp [Slots.at]
  | v6 g =>
    simp only [Ip.is4, if_false, Bool.false_eq_true]
    by_cases h1 : (Ip.v6 g).loopback = true
    · simp only [h1, if_true]
      match k with
      | 0 | 1 | 2 | 3 | 4 | 5 | _ + 6 => simp [Slots.at]
    · by_cases h2 : (Ip.v6 g).priv = true
      · simp only [h1, h2, if_true, if_false, Bool.false_eq_true]
        match k with
        | 0 | 1 | 2 | 3 | 4 | 5 | _ + 6 => simp [Slots.at]
      · simp only [h1, h2, if_false, Bool.false_eq_true]
        match k with
        | 0 | 1 | 2 | 3 | 4 | 5 | _ + 6 => simp [Slots.at]

theorem rank_lt (ip : Ip) : rank ip < 6 := by
  unfold rank; cases ip <;> (simp only; split; decide; split <;> decide)

/-- Every variable holds the last address of its class. -/
theorem foldl_at (ips : List Ip) (k : Nat) (hk : k < 6) :
    match (ips.foldl Slots.see {}).at k with
    | none => ∀ x ∈ ips, rank x ≠ k
    | some ip => rank ip = k ∧ ∃ a b, ips = a ++ ip :: b ∧ ∀ x ∈ b, rank x ≠ k := by
  rw [← List.reverse_reverse ips]
  generalize ips.reverse = r
  induction r with
  | nil =>
    match k, hk with
    | 0, _ | 1, _ | 2, _ | 3, _ | 4, _ | 5, _ => simp [Slots.at]
  | cons x l ih =>
    rw [List.reverse_cons]
    generalize l.reverse = l at ih ⊢
    rw [List.foldl_append]
    simp only [List.foldl_cons, List.foldl_nil]
    rw [see_at]
    by_cases h : k = rank x
    · rw [if_pos h]
      exact ⟨h.symm, l, [], rfl, by simp⟩
    · rw [if_neg h]
      split
      · rename_i hn
        rw [hn] at ih
        simp only at ih
        intro y hy
        rcases List.mem_append.1 hy with hy | hy
        · exact ih y hy
        · rw [List.mem_singleton.1 hy]; exact fun e => h e.symm
      · rename_i ip hs
        rw [hs] at ih
        obtain ⟨h1, a, b, h2, h3⟩ := ih
        refine ⟨h1, a, b ++ [x], by rw [h2]; simp, ?_⟩
        intro y hy
        rcases List.mem_append.1 hy with hy | hy
        · exact h3 y hy
        · rw [List.mem_singleton.1 hy]; exact fun e => h e.symm

/-- **C107** Of the addresses of a name the best one is taken, in the order the comment promises (public IPv4, private, loopback,
then the same for IPv6), and there is none only if the name has none. -/
theorem C107_pick (ips : List Ip) :
    match pick ips with
    | none => ips = []
    | some ip => Best ips ip := by
  have key : ∀ k, k < 6 → (∀ j, j < k → (ips.foldl Slots.see {}).at j = none) → ∀ ip, (ips.foldl Slots.see {}).at k = some ip →
      Best ips ip := by
    intro k hk hlow ip hip
    have hno : ∀ x ∈ ips, k ≤ rank x := by
      intro x hx
      by_cases hlt : rank x < k
      · have h := foldl_at ips (rank x) (rank_lt x)
        rw [hlow _ hlt] at h
        exact absurd rfl (h x hx)
      · omega
    have h := foldl_at ips k hk
    rw [hip] at h
    obtain ⟨h1, a, b, h2, h3⟩ := h
    refine ⟨a, b, h2, ?_, ?_⟩
    · intro x hx; rw [h1]; exact hno x (by rw [h2]; simp [hx])
    · intro x hx; rw [h1]
      have := hno x (by rw [h2]; simp [hx])
      have := h3 x hx
      omega
  generalize hs : ips.foldl Slots.see {} = s at key
  have hb : pick ips = (s.at 0).or ((s.at 1).or ((s.at 2).or ((s.at 3).or ((s.at 4).or (s.at 5))))) := by
    unfold pick Slots.best; rw [hs]; rfl
  rw [hb]
  have lt2 : ∀ j, j < 1 → j = 0 := by omega
  cases h0 : s.at 0 with
  | some ip => exact key 0 (by omega) (by omega) ip h0
  | none =>
    cases h1 : s.at 1 with
    | some ip => exact key 1 (by omega) (fun j hj => by have : j = 0 := by omega
                                                        rw [this, h0]) ip h1
    | none =>
      cases h2 : s.at 2 with
      | some ip => exact key 2 (by omega) (fun j hj => by
          match j, hj with
          | 0, _ => exact h0
          | 1, _ => exact h1) ip h2
      | none =>
        cases h3 : s.at 3 with
        | some ip => exact key 3 (by omega) (fun j hj => by
            match j, hj with
            | 0, _ => exact h0
            | 1, _ => exact h1
            | 2, _ => exact h2) ip h3
        | none =>
          cases h4 : s.at 4 with
          | some ip => exact key 4 (by omega) (fun j hj => by
              match j, hj with
              | 0, _ => exact h0
              | 1, _ => exact h1
              | 2, _ => exact h2
              | 3, _ => exact h3) ip h4
          | none =>
            cases h5 : s.at 5 with
            | some ip => exact key 5 (by omega) (fun j hj => by
                match j, hj with
                | 0, _ => exact h0
                | 1, _ => exact h1
                | 2, _ => exact h2
                | 3, _ => exact h3
                | 4, _ => exact h4) ip h5
            | none =>
              show ips = []
              cases ips with
              | nil => rfl
              | cons x l =>
                exfalso
                have h := foldl_at (x :: l) (rank x) (rank_lt x)
                rw [hs] at h
                have hn : s.at (rank x) = none := by
                  have := rank_lt x
                  match rank x, this with
                  | 0, _ => exact h0
                  | 1, _ => exact h1
                  | 2, _ => exact h2
                  | 3, _ => exact h3
                  | 4, _ => exact h4
                  | 5, _ => exact h5
                rw [hn] at h
                exact h x (List.mem_cons_self ..) rfl

/-- Of two public addresses the later one, and of a private and an IPv6 address the private one. -/
example : pick [.v4 127 0 0 1, .v4 8 8 8 8, .v6 [0x2001, 0, 0, 0, 0, 0, 0, 1], .v4 9 9 9 9, .v4 10 0 0 1] = some (.v4 9 9 9 9) ∧
    pick [.v6 [0x2001, 0, 0, 0, 0, 0, 0, 1], .v4 192 168 1 2] = some (.v4 192 168 1 2) ∧ pick [] = none := by decide

theorem afterScheme_none_of {s : Str} (h : ':' ∉ s) : afterScheme s = none := by
  induction s with
  | nil => rfl
  | cons c t ih =>
    simp only [List.mem_cons, not_or] at h
    have := ih h.2
    unfold afterScheme
    split
    · rename_i heq; simp only [List.cons.injEq] at heq; exact absurd heq.1.symm h.1
    · rename_i heq; simp only [List.cons.injEq] at heq; rw [← heq.2]; exact this
    · rfl

theorem afterScheme_append {s t : Str} (h : ':' ∉ s) : afterScheme (s ++ ':' :: '/' :: '/' :: t) = some t := by
  induction s with
  | nil => rfl
  | cons c s ih =>
    simp only [List.mem_cons, not_or] at h
    have := ih h.2
    rw [List.cons_append]
    unfold afterScheme
    split
    · rename_i heq; simp only [List.cons.injEq] at heq; exact absurd heq.1.symm h.1
    · rename_i heq; simp only [List.cons.injEq] at heq; rw [← heq.2]; exact this
    · rename_i heq; cases heq

/-- A piece without colon before the rest, and a colon that starts no `//`. -/
theorem afterScheme_colon {s t : Str} (h : ':' ∉ s) (ht : ∀ c ∈ t.head?, c ≠ '/') (hr : afterScheme t = none) :
    afterScheme (s ++ ':' :: t) = none := by
  induction s with
  | nil =>
    rw [List.nil_append]
    unfold afterScheme
    split
    · rename_i heq
      simp only [List.cons.injEq] at heq
      rw [heq.2] at ht
      exact absurd rfl (ht '/' (by simp))
    · rename_i heq; simp only [List.cons.injEq] at heq; rw [← heq.2]; exact hr
    · rename_i heq; cases heq
  | cons c s ih =>
    simp only [List.mem_cons, not_or] at h
    have := ih h.2
    rw [List.cons_append]
    unfold afterScheme
    split
    · rename_i heq; simp only [List.cons.injEq] at heq; exact absurd heq.1.symm h.1
    · rename_i heq; simp only [List.cons.injEq] at heq; rw [← heq.2]; exact this
    · rename_i heq; cases heq

/-- The last steps, after the scheme. -/
def hostOf (addr : Str) : Str :=
  let addr := match cutOn '/' addr with
    | some (h, _) => if h = [] then addr else h
    | none => addr
  match splitHostPort addr with
  | some (h, _) => h
  | none => addr

theorem hostFromAddr_eq (a : Str) : hostFromAddr a = hostOf ((afterScheme a).getD a) := rfl

theorem hostOf_path {h path : Str} (hh : h ≠ []) (hc : '/' ∉ h) : hostOf (h ++ '/' :: path) = hostOf h := by
  unfold hostOf
  rw [cutOn_append hc, cutOn_none.2 hc]
  simp only [if_neg hh]

theorem hostOf_port {h port : Str} (hc : ':' ∉ h ∧ '/' ∉ h ∧ '[' ∉ h ∧ ']' ∉ h)
    (hp : ':' ∉ port ∧ '/' ∉ port ∧ '[' ∉ port ∧ ']' ∉ port) : hostOf (h ++ ':' :: port) = h := by
  have e := C102_split_join h port ⟨hc.2.2.1, hc.2.2.2⟩ ⟨hp.2.2.1, hp.2.2.2, hp.1⟩
  unfold joinHostPort at e
  rw [if_neg hc.1] at e
  unfold hostOf
  rw [cutOn_none.2 (by simp [hc.2.1, hp.2.1])]
  simp only [e]

theorem hostOf_plain {h : Str} (hc : ':' ∉ h ∧ '/' ∉ h) : hostOf h = h := by
  unfold hostOf
  rw [cutOn_none.2 hc.2]
  simp only
  unfold splitHostPort
  rw [cutLast_none.2 hc.1]

/-- **C107** The host of an address in any of its forms: with a scheme, a port and a path, or without them. -/
theorem C107_host (scheme h port path : Str) (hh : h ≠ []) (hc : ':' ∉ h ∧ '/' ∉ h ∧ '[' ∉ h ∧ ']' ∉ h)
    (hp : ':' ∉ port ∧ '/' ∉ port ∧ '[' ∉ port ∧ ']' ∉ port) (hs : ':' ∉ scheme) (hpath : ':' ∉ path) :
    hostFromAddr (scheme ++ ':' :: '/' :: '/' :: (h ++ ':' :: port ++ '/' :: path)) = h ∧
    hostFromAddr (scheme ++ ':' :: '/' :: '/' :: (h ++ '/' :: path)) = h ∧
    hostFromAddr (scheme ++ ':' :: '/' :: '/' :: (h ++ ':' :: port)) = h ∧
    hostFromAddr (h ++ ':' :: port) = h ∧ hostFromAddr (h ++ '/' :: path) = h ∧ hostFromAddr h = h := by
  have e1 : hostOf (h ++ ':' :: port ++ '/' :: path) = h := by
    rw [hostOf_path (by simp) (by simp [hc.2.1, hp.2.1]), hostOf_port hc hp]
  have e2 : hostOf (h ++ '/' :: path) = h := by rw [hostOf_path hh hc.2.1, hostOf_plain ⟨hc.1, hc.2.1⟩]
  refine ⟨?_, ?_, ?_, ?_, ?_, ?_⟩
  · rw [hostFromAddr_eq, afterScheme_append hs]; exact e1
  · rw [hostFromAddr_eq, afterScheme_append hs]; exact e2
  · rw [hostFromAddr_eq, afterScheme_append hs]; exact hostOf_port hc hp
  · rw [hostFromAddr_eq, afterScheme_colon hc.1 ?_ (afterScheme_none_of hp.1)]
    · exact hostOf_port hc hp
    · intro c hcm
      cases port with
      | nil => simp at hcm
      | cons d t =>
        simp only [List.head?_cons, Option.mem_some_iff] at hcm
        rw [← hcm]
        exact fun e => hp.2.1 (by rw [e]; exact List.mem_cons_self ..)
  · rw [hostFromAddr_eq, afterScheme_none_of (by simp [hc.1, hpath])]; exact e2
  · rw [hostFromAddr_eq, afterScheme_none_of hc.1]; exact hostOf_plain ⟨hc.1, hc.2.1⟩

example : hostFromAddr "http://meta1:8010/v1/x".toList = "meta1".toList ∧ hostFromAddr "[fe80::1]:80".toList = "fe80::1".toList ∧
    hostFromAddr "10.0.0.1".toList = "10.0.0.1".toList := by decide

/-- **C107** FINDING.  An IPv6 address in brackets without a port keeps its brackets, and one without brackets loses nothing: the
first is then not an address any more, so the name is looked up and not found. -/
theorem C107_brackets : hostFromAddr "http://[fe80::1]/x".toList = "[fe80::1]".toList ∧
    hostFromAddr "/10.0.0.1:80".toList = "/10.0.0.1".toList := by decide

/-! ## C107: the address of the machine -/

/-- A process: what the machine was like whenever the address was asked for, and the answers. -/
def asks : Option Str → List Machine → List Str
  | _, [] => []
  | known, m :: ms => (detectOnce known m).1 :: asks (detectOnce known m).2 ms

/-- **C107** A process always gets the same address, the one that was found first, whatever happens to the machine. -/
theorem C107_once (m : Machine) (ms : List Machine) : asks none (m :: ms) = List.replicate (ms.length + 1) (detect m) := by
  have h : ∀ (l : List Machine) v, asks (some v) l = List.replicate l.length v := by
    intro l
    induction l with
    | nil => intro v; rfl
    | cons x l ih => intro v; simp only [asks, detectOnce, ih, List.length_cons, List.replicate_succ]
  simp only [asks, detectOnce, h, List.replicate_succ]

example : asks none [⟨none, some ("10.0.0.7".toList, some (.v4 10 0 0 7))⟩, ⟨some "1.2.3.4".toList, none⟩] =
    ["10.0.0.7".toList, "10.0.0.7".toList] := by decide

/-- **C107** The detected address: the variable SERVER_IP as it is, else the address of the socket if it is a private one or a
public IPv4 address, else `127.0.0.1`.  So without the variable it is either an address others can reach or `127.0.0.1`. -/
theorem C107_detected (m : Machine) :
    (∀ v, m.serverIp = some v → detect m = v) ∧
    (m.serverIp = none → detect m = localhost ∨ ∃ ip, m.dial = some (detect m, some ip) ∧ Routable ip) := by
  constructor
  · intro v h; unfold detect; rw [h]
  · intro h
    unfold detect
    rw [h]
    simp only
    cases hd : m.dial with
    | none => left; rfl
    | some p =>
      obtain ⟨text, ip⟩ := p
      simp only
      cases ip with
      | none => left; rfl
      | some ip =>
        simp only
        by_cases hp : (ip.priv || isPublic ip) = true
        · rw [if_pos hp]
          right
          refine ⟨ip, rfl, ?_⟩
          rcases Bool.or_eq_true _ _ ▸ hp with hp | hp
          · cases ip with
            | v4 a b c d =>
              simp only [Ip.priv, Bool.or_eq_true, Bool.and_eq_true, decide_eq_true_eq] at hp
              simp only [Routable, Ip.loopback, Ip.linkUni, Ip.linkMulti, decide_eq_false_iff_not, Bool.and_eq_false_iff]
              omega
            | v6 g =>
              simp only [Ip.priv, decide_eq_true_eq] at hp
              refine ⟨?_, ?_, ?_⟩
              · simp only [Ip.loopback, decide_eq_false_iff_not]
                rintro rfl
                simp at hp
              · simp only [Ip.linkUni, decide_eq_false_iff_not]; omega
              · simp only [Ip.linkMulti, Bool.and_eq_false_iff, decide_eq_false_iff_not]; omega
          · unfold isPublic at hp
            split at hp
            · cases hp
            · rename_i hn
              simp only [Bool.or_eq_true, not_or, Bool.not_eq_true] at hn
              exact ⟨hn.1.1.1, hn.1.2, hn.1.1.2⟩
        · rw [if_neg hp]; left; rfl

/-- **C107** FINDING.  A machine that only has a public IPv6 address takes itself for `127.0.0.1`, so other servers do not reach it;
and an empty variable SERVER_IP is taken as address. -/
theorem C107_no_ipv6 :
    detect ⟨none, some ("2001:db8::7".toList, some (.v6 [0x2001, 0xdb8, 0, 0, 0, 0, 0, 7]))⟩ = localhost ∧
    detect ⟨some [], some ("10.0.0.7".toList, some (.v4 10 0 0 7))⟩ = [] := by decide

/-! ## C107: the id and the directories -/

/-- **C107** The id of a server does not change while it runs: asked again, at whatever address, it is the same. -/
theorem C107_sid_stable (r r' : Reg) (ip ip' s : Str) (h : sid r ip = some (s, r')) : sid r' ip' = some (s, r') := by
  unfold sid at h ⊢
  by_cases hs : r.serverId ≠ []
  · rw [if_pos hs] at h
    simp only [Option.some.injEq, Prod.mk.injEq] at h
    obtain ⟨rfl, rfl⟩ := h
    rw [if_pos hs]
  · rw [if_neg hs] at h
    cases ha : registerAddr r ip with
    | none => rw [ha] at h; cases h
    | some a =>
      rw [ha] at h
      simp only [Option.some.injEq, Prod.mk.injEq] at h
      obtain ⟨rfl, rfl⟩ := h
      rw [if_pos]
      show Discovery.defaultSid r.name a ≠ []
      unfold Discovery.defaultSid; simp

/-- The letters of an address that are in the id. -/
def squeeze (a : Str) : Str := (a.filter (· ≠ '.')).map fun c => if c = ':' then '-' else c

theorem squeeze_append (a b : Str) : squeeze (a ++ b) = squeeze a ++ squeeze b := by simp [squeeze]

/-- **C107** A server that is started with the same configuration at another address has the same id, thus the same directories,
exactly if the id or the address is configured or the two addresses look the same without their dots. -/
theorem C107_same_id (r : Reg) (ip ip' : Str) (hp : r.port ≠ []) :
    (sid r ip).map (·.1) = (sid r ip').map (·.1) ↔
      r.serverId ≠ [] ∨ r.serverIp ≠ [] ∨ squeeze (joinHostPort ip r.port) = squeeze (joinHostPort ip' r.port) := by
  unfold sid
  by_cases hs : r.serverId ≠ []
  · rw [if_pos hs, if_pos hs]
    simp [hs]
  · rw [if_neg hs, if_neg hs]
    unfold registerAddr
    rw [if_neg hp, if_neg hp]
    by_cases hi : r.serverIp = []
    · rw [if_pos hi, if_pos hi]
      simp only [Option.map_some, Option.some.injEq, Discovery.defaultSid, List.append_cancel_left_eq, List.cons.injEq, true_and]
      constructor
      · intro h; right; right; exact h
      · rintro (h | h | h)
        · exact absurd h hs
        · exact absurd hi h
        · exact h
    · rw [if_neg hi, if_neg hi]
      simp [hi]

example : (sid ⟨[], "obj1".toList, "obj".toList, "80".toList⟩ "10.0.0.1".toList).map (·.1) = some "obj1".toList ∧
    (sid ⟨[], [], "obj".toList, "80".toList⟩ "10.0.0.1".toList).map (·.1) = some "obj-10001-80".toList := by decide

/-- **C107** The file of the performance records of an API server: in the directory of the logs if there is one; started again at
another address, the server finds it under the same condition as its other files. -/
theorem C107_perf_file (logDir tmp : Str) (r : Reg) (ip ip' : Str) (hp : r.port ≠ []) :
    (∀ f, perfFile logDir tmp r ip = some f → (logDir ≠ [] → f.1 = logDir) ∧ (logDir = [] → f.1 = tmp)) ∧
    (perfFile logDir tmp r ip = perfFile logDir tmp r ip' ↔
      r.serverId ≠ [] ∨ r.serverIp ≠ [] ∨ squeeze (joinHostPort ip r.port) = squeeze (joinHostPort ip' r.port)) := by
  constructor
  · intro f hf
    unfold perfFile at hf
    cases hs : sid r ip with
    | none => rw [hs] at hf; cases hf
    | some p =>
      rw [hs] at hf
      simp only [Option.map_some, Option.some.injEq] at hf
      subst hf
      constructor
      · intro h; simp [h]
      · intro h; simp [h]
  · rw [← C107_same_id r ip ip' hp]
    unfold perfFile
    cases sid r ip with
    | none => cases sid r ip' <;> simp
    | some p => cases sid r ip' <;> simp

example : perfFile [] "/tmp".toList ⟨[], [], "api".toList, "80".toList⟩ "10.0.0.1".toList =
    some ("/tmp".toList, "api-10001-80.perf".toList) := by decide

theorem squeeze_digits (s : Str) (hs : ∀ c ∈ s, c.isDigit = true) : squeeze s = s := by
  unfold squeeze
  have hf : s.filter (· ≠ '.') = s := by
    rw [List.filter_eq_self]
    intro c hc
    have := hs c hc
    have hne : c ≠ '.' := by rintro rfl; revert this; decide
    simpa using hne
  rw [hf]
  conv => rhs; rw [← List.map_id s]
  apply List.map_congr_left
  intro c hc
  have := hs c hc
  have hne : c ≠ ':' := by rintro rfl; revert this; decide
  simp [hne]

theorem joinHostPort_split (h p : Str) : ∃ x, (∀ p', joinHostPort h p' = x ++ ':' :: p') ∧ joinHostPort h p = x ++ ':' :: p := by
  unfold joinHostPort
  by_cases hc : ':' ∈ h
  · exact ⟨'[' :: h ++ [']'], by intro p'; rw [if_pos hc]; simp, by rw [if_pos hc]; simp⟩
  · exact ⟨h, by intro p'; rw [if_neg hc], by rw [if_neg hc]⟩

/-- **C107** Data servers of one machine with different ports have different directories, if no ids are configured. -/
theorem C107_apart (sp : Str) (r r' : Reg) (ip : Str) (hid : r.serverId = [] ∧ r'.serverId = []) (hn : r.name = r'.name)
    (hip : r.serverIp = r'.serverIp) (hp : r.port ≠ [] ∧ ∀ c ∈ r.port, c.isDigit = true)
    (hp' : r'.port ≠ [] ∧ ∀ c ∈ r'.port, c.isDigit = true) (hne : r.port ≠ r'.port) :
    ∃ d d', dataDirs sp r ip = some d ∧ dataDirs sp r' ip = some d' ∧ d.store ≠ d'.store ∧ d.pathCache ≠ d'.pathCache ∧
      d.store ≠ d.pathCache := by
  have key : ∃ h, registerAddr r ip = some (joinHostPort h r.port) ∧ registerAddr r' ip = some (joinHostPort h r'.port) := by
    unfold registerAddr serverAddress
    rw [if_neg hp.1, if_neg hp'.1, ← hip]
    by_cases hi : r.serverIp = []
    · exact ⟨ip, by rw [if_pos hi], by rw [if_pos hi]⟩
    · exact ⟨r.serverIp, by rw [if_neg hi], by rw [if_neg hi]⟩
  obtain ⟨h, e1, e2⟩ := key
  obtain ⟨x, hx, _⟩ := joinHostPort_split h []
  have hsid : Discovery.defaultSid r.name (joinHostPort h r.port) ≠ Discovery.defaultSid r'.name (joinHostPort h r'.port) := by
    intro he
    rw [hn] at he
    simp only [Discovery.defaultSid, List.append_cancel_left_eq, List.cons.injEq, true_and] at he
    have he : squeeze (joinHostPort h r.port) = squeeze (joinHostPort h r'.port) := he
    rw [hx, hx, squeeze_append, squeeze_append, List.append_cancel_left_eq] at he
    have c : ∀ t, squeeze (':' :: t) = '-' :: squeeze t := by intro t; simp [squeeze]
    rw [c, c, squeeze_digits _ hp.2, squeeze_digits _ hp'.2] at he
    exact hne (List.cons.inj he).2
  refine ⟨⟨(sp, Discovery.defaultSid r.name (joinHostPort h r.port) ++ "_path-cache".toList),
      (sp, Discovery.defaultSid r.name (joinHostPort h r.port) ++ "_store".toList),
      (sp, Discovery.defaultSid r.name (joinHostPort h r.port) ++ "_store".toList)⟩,
    ⟨(sp, Discovery.defaultSid r'.name (joinHostPort h r'.port) ++ "_path-cache".toList),
      (sp, Discovery.defaultSid r'.name (joinHostPort h r'.port) ++ "_store".toList),
      (sp, Discovery.defaultSid r'.name (joinHostPort h r'.port) ++ "_store".toList)⟩, ?_, ?_, ?_, ?_, ?_⟩
  · unfold dataDirs sid; rw [if_neg (by simp [hid.1]), e1]; rfl
  · unfold dataDirs sid; rw [if_neg (by simp [hid.2]), e2]; rfl
  · simp only [ne_eq, Prod.mk.injEq, true_and, List.append_cancel_right_eq]; exact hsid
  · simp only [ne_eq, Prod.mk.injEq, true_and, List.append_cancel_right_eq]; exact hsid
  · simp

/-! ## C107: a data server over its starts -/

/-- What the disk holds: directory, name, content. -/
abbrev Disk := Str × Str → Str → Option (List UInt8)

/-- A data server on its machine: `dir` is the directory of the running process. -/
structure Srv where
  disk : Disk
  dir : Option (Str × Str)

inductive Ev
  | start (m : Machine)
  | stop
  | put (name : Str) (c : List UInt8)
  | del (name : Str)

/-- A file is written or removed. -/
def setFile (d : Disk) (dir : Str × Str) (n : Str) (v : Option (List UInt8)) : Disk :=
  fun d' n' => if d' = dir ∧ n' = n then v else d d' n'

/-- One event; none: it cannot happen (the start panics, or the server is not in the state for it). -/
def step (sp : Str) (r : Reg) (s : Srv) : Ev → Option Srv
  | .start m => match s.dir with
    | some _ => none
    | none => (dataDirs sp r (detect m)).map fun d => { s with dir := some d.store }
  | .stop => s.dir.map fun _ => { s with dir := none }
  | .put n c => s.dir.map fun dir => { s with disk := setFile s.disk dir n (some c) }
  | .del n => s.dir.map fun dir => { s with disk := setFile s.disk dir n none }

def run (sp : Str) (r : Reg) (s : Srv) : List Ev → Option Srv
  | [] => some s
  | e :: es => (step sp r s e).bind fun s' => run sp r s' es

/-- A new machine. -/
def Srv.new : Srv := ⟨fun _ _ => none, none⟩

/-- What the running server answers for an object. -/
def Srv.get (s : Srv) (n : Str) : Option (List UInt8) := s.dir.bind fun dir => s.disk dir n

/-- Specification: what the last event about an object made of it. -/
def objects (es : List Ev) (n : Str) : Option (List UInt8) :=
  es.foldl (fun v e => match e with
    | .put n' c => if n' = n then some c else v
    | .del n' => if n' = n then none else v
    | _ => v) none

/-- The property: a server that is started again with its configuration has all its objects. -/
def C107_statement : Prop :=
  ∀ (sp : Str) (r : Reg) (es : List Ev) (s : Srv), run sp r .new es = some s → s.dir.isSome → ∀ n, s.get n = objects es n

/-- The place of the objects is settled: by the configuration, or because the machine keeps its address. -/
def Settled (r : Reg) (es : List Ev) : Prop :=
  r.serverId ≠ [] ∨ r.serverIp ≠ [] ∨ ∃ ip, ∀ m, Ev.start m ∈ es → detect m = ip

theorem run_append (sp : Str) (r : Reg) : ∀ (a b : List Ev) (s : Srv),
    run sp r s (a ++ b) = (run sp r s a).bind fun s' => run sp r s' b := by
  intro a
  induction a with
  | nil => intro b s; rfl
  | cons e a ih =>
    intro b s
    simp only [List.cons_append, run]
    cases step sp r s e with
    | none => rfl
    | some s' => exact ih b s'

theorem objects_snoc (es : List Ev) (e : Ev) (n : Str) : objects (es ++ [e]) n = (match e with
    | .put n' c => if n' = n then some c else objects es n
    | .del n' => if n' = n then none else objects es n
    | _ => objects es n) := by
  unfold objects
  rw [List.foldl_append]
  cases e <;> rfl

/-- With a settled place the directory is always the same. -/
theorem settled_dir (sp : Str) (r : Reg) (es : List Ev) (h : Settled r es) :
    ∃ d0, ∀ m d, Ev.start m ∈ es → dataDirs sp r (detect m) = some d → d.store = d0 := by
  have key : ∀ ip ip', (r.serverId ≠ [] ∨ r.serverIp ≠ []) → (sid r ip).map (·.1) = (sid r ip').map (·.1) := by
    intro ip ip' h
    unfold sid
    by_cases hs : r.serverId ≠ []
    · rw [if_pos hs, if_pos hs]
    · rw [if_neg hs, if_neg hs]
      have hi := h.resolve_left hs
      unfold registerAddr
      by_cases hp : r.port = []
      · rw [if_pos hp, if_pos hp]
      · rw [if_neg hp, if_neg hp, if_neg hi, if_neg hi]
  have all : ∀ m m', Ev.start m ∈ es → Ev.start m' ∈ es → (sid r (detect m)).map (·.1) = (sid r (detect m')).map (·.1) := by
    intro m m' hm hm'
    rcases h with h | h | ⟨ip, h⟩
    · exact key _ _ (.inl h)
    · exact key _ _ (.inr h)
    · rw [h m hm, h m' hm']
  by_cases hex : ∃ m d, Ev.start m ∈ es ∧ dataDirs sp r (detect m) = some d
  · obtain ⟨m, d, hm, hd⟩ := hex
    refine ⟨d.store, ?_⟩
    intro m' d' hm' hd'
    have e := all m m' hm hm'
    unfold dataDirs at hd hd'
    cases h1 : sid r (detect m) with
    | none => rw [h1] at hd; cases hd
    | some p =>
      cases h2 : sid r (detect m') with
      | none => rw [h2] at hd'; cases hd'
      | some p' =>
        rw [h1] at hd e; rw [h2] at hd' e
        simp only [Option.map_some, Option.some.injEq] at hd hd' e
        rw [← hd, ← hd', e]
  · refine ⟨([], []), ?_⟩
    intro m d hm hd
    exact absurd ⟨m, d, hm, hd⟩ hex

/-- **C107** Objects survive every restart of a data server, if its id or address is configured or the machine keeps its address.
Partial: the statement asks for it without that condition, and is false. -/
theorem C107_partial (sp : Str) (r : Reg) (es : List Ev) (s : Srv) (hset : Settled r es) (h : run sp r .new es = some s)
    (hd : s.dir.isSome) (n : Str) : s.get n = objects es n := by
  obtain ⟨d0, h0⟩ := settled_dir sp r es hset
  have inv : ∀ (pre post : List Ev), es = pre ++ post → ∀ s, run sp r .new pre = some s →
      (∀ d, s.dir = some d → d = d0) ∧ ∀ n, s.disk d0 n = objects pre n := by
    intro pre
    rw [← List.reverse_reverse pre]
    generalize pre.reverse = q
    induction q with
    | nil =>
      intro post _ s hs
      simp only [List.reverse_nil, run, Option.some.injEq] at hs
      rw [← hs]
      exact ⟨(by intro d hd; cases hd), by intro n; rfl⟩
    | cons e q ih =>
      intro post he s hs
      rw [List.reverse_cons, run_append] at hs
      cases hq : run sp r .new q.reverse with
      | none => rw [hq] at hs; cases hs
      | some s1 =>
        rw [hq] at hs
        obtain ⟨i1, i2⟩ := ih (e :: post) (by rw [he]; simp) s1 hq
        have hs : step sp r s1 e = some s := by
          simp only [Option.bind_some, run] at hs
          cases hst : step sp r s1 e with
          | none => rw [hst] at hs; cases hs
          | some s2 => rw [hst] at hs; simpa [run] using hs
        rw [List.reverse_cons]
        cases e with
        | start m =>
          cases hdir : s1.dir with
          | some d => simp only [step, hdir] at hs; cases hs
          | none =>
            simp only [step, hdir] at hs
            cases hdd : dataDirs sp r (detect m) with
            | none => rw [hdd] at hs; cases hs
            | some d =>
              rw [hdd] at hs
              simp only [Option.map_some, Option.some.injEq] at hs
              rw [← hs]
              refine ⟨?_, ?_⟩
              · intro d' hd'
                simp only [Option.some.injEq] at hd'
                rw [← hd']
                exact h0 m d (by rw [he]; simp) hdd
              · intro n; rw [objects_snoc]; exact i2 n
        | stop =>
          cases hdir : s1.dir with
          | none => simp only [step, hdir] at hs; cases hs
          | some d =>
            simp only [step, hdir, Option.map_some, Option.some.injEq] at hs
            rw [← hs]
            exact ⟨(by intro d hd; cases hd), by intro n; rw [objects_snoc]; exact i2 n⟩
        | put m c =>
          cases hdir : s1.dir with
          | none => simp only [step, hdir] at hs; cases hs
          | some d =>
            simp only [step, hdir, Option.map_some, Option.some.injEq] at hs
            have hdd := i1 d hdir
            rw [← hs]
            refine ⟨by intro d' hd'; exact i1 d' (by rw [hdir] at *; exact hd'), ?_⟩
            intro n
            rw [objects_snoc]
            simp only [setFile]
            by_cases hn : m = n
            · rw [if_pos ⟨hdd.symm, hn.symm⟩, if_pos hn]
            · rw [if_neg (fun e => hn e.2.symm), if_neg hn]; exact i2 n
        | del m =>
          cases hdir : s1.dir with
          | none => simp only [step, hdir] at hs; cases hs
          | some d =>
            simp only [step, hdir, Option.map_some, Option.some.injEq] at hs
            have hdd := i1 d hdir
            rw [← hs]
            refine ⟨by intro d' hd'; exact i1 d' (by rw [hdir] at *; exact hd'), ?_⟩
            intro n
            rw [objects_snoc]
            simp only [setFile]
            by_cases hn : m = n
            · rw [if_pos ⟨hdd.symm, hn.symm⟩, if_pos hn]
            · rw [if_neg (fun e => hn e.2.symm), if_neg hn]; exact i2 n
  obtain ⟨i1, i2⟩ := inv es [] (by simp) s h
  unfold Srv.get
  cases hdir : s.dir with
  | none => rw [hdir] at hd; cases hd
  | some d => rw [i1 d hdir]; exact i2 n

/-- A machine with an address of a private network. -/
def machine (d : Nat) : Machine := ⟨none, some ("10.0.0.".toList ++ fmtNat d, some (.v4 10 0 0 d))⟩

/-- A configured id: stored at one address, read at another. -/
example : (run "/objects".toList ⟨[], "obj1".toList, "obj".toList, "80".toList⟩ .new
      [.start (machine 1), .put "a".toList [7], .stop, .start (machine 2)]).map (·.get "a".toList) = some (some [7]) ∧
    Settled ⟨[], "obj1".toList, "obj".toList, "80".toList⟩
      [.start (machine 1), .put "a".toList [7], .stop, .start (machine 2)] := ⟨by decide, .inl (by decide)⟩

/-- **C107** FINDING.  A data server without a configured id that is started again at another address has none of its objects: it
looks for them in a directory that is named after the new address. -/
theorem C107_moved (sp : Str) (r : Reg) (m m' : Machine) (n : Str) (c : List UInt8) (hid : r.serverId = []) (hip : r.serverIp = [])
    (hp : r.port ≠ []) (hne : squeeze (joinHostPort (detect m) r.port) ≠ squeeze (joinHostPort (detect m') r.port)) :
    ∃ s, run sp r .new [.start m, .put n c, .stop, .start m'] = some s ∧ s.get n = none ∧ s.dir.isSome = true := by
  have hs : ∀ ip, sid r ip = some (Discovery.defaultSid r.name (joinHostPort ip r.port),
      { r with serverId := Discovery.defaultSid r.name (joinHostPort ip r.port) }) := by
    intro ip
    unfold sid registerAddr serverAddress
    rw [if_neg (by simp [hid]), if_neg hp, if_pos hip]
  refine ⟨⟨setFile (fun _ _ => none) (sp, Discovery.defaultSid r.name (joinHostPort (detect m) r.port) ++ "_store".toList) n (some c),
    some (sp, Discovery.defaultSid r.name (joinHostPort (detect m') r.port) ++ "_store".toList)⟩, ?_, ?_, rfl⟩
  · simp only [run, step, dataDirs, hs, Srv.new, Option.map_some, Option.bind_some]
  · simp only [Srv.get, Option.bind_some, setFile]
    rw [if_neg]
    rintro ⟨he, _⟩
    simp only [Prod.mk.injEq, true_and, List.append_cancel_right_eq, Discovery.defaultSid, List.append_cancel_left_eq,
      List.cons.injEq] at he
    exact hne he.symm

theorem C107_statement_fails : ¬ C107_statement := by
  intro h
  obtain ⟨s, h1, h2, h3⟩ := C107_moved [] ⟨[], [], "obj".toList, "80".toList⟩ (machine 1) (machine 2) "a".toList [7] rfl rfl
    (by decide) (by decide)
  have := h _ _ _ _ h1 h3 "a".toList
  rw [h2] at this
  revert this
  decide

/-! ## C107: metadata servers -/

theorem joinHostPort_inj {h h' p : Str} (e : joinHostPort h p = joinHostPort h' p) : h = h' := by
  unfold joinHostPort at e
  by_cases h1 : ':' ∈ h
  · rw [if_pos h1] at e
    have e1 : '[' :: h ++ (']' :: ':' :: p) = ('[' :: h ++ [']']) ++ ':' :: p := by simp
    by_cases h2 : ':' ∈ h'
    · rw [if_pos h2] at e
      simpa using e
    · rw [if_neg h2, e1, List.append_cancel_right_eq] at e
      rw [← e] at h2
      simp [h1] at h2
  · rw [if_neg h1] at e
    by_cases h2 : ':' ∈ h'
    · rw [if_pos h2] at e
      have e1 : '[' :: h' ++ (']' :: ':' :: p) = ('[' :: h' ++ [']']) ++ ':' :: p := by simp
      rw [e1, List.append_cancel_right_eq] at e
      rw [e] at h1
      simp [h2] at h1
    · rw [if_neg h2, List.append_cancel_right_eq] at e
      exact e

/-- **C107** A metadata server starts if it has a port, and has the same id for the registry, for its group and for its directory. -/
theorem C107_meta_id (dataDir tmp : Str) (r : Reg) (ip : Str) (hp : r.port ≠ []) :
    ∃ i r', metaId dataDir tmp r ip = some i ∧ sid r ip = some (i.id, r') ∧ i.dir = (if dataDir = [] then tmp else dataDir, i.id) ∧
      (r.serverId ≠ [] → i.id = r.serverId) ∧ registerAddr r ip = some i.addr := by
  unfold metaId sid
  have ha : ∃ a, registerAddr r ip = some a := by
    unfold registerAddr; rw [if_neg hp]; split <;> exact ⟨_, rfl⟩
  obtain ⟨a, ha⟩ := ha
  by_cases hs : r.serverId ≠ []
  · rw [if_pos hs]
    simp only [ha]
    exact ⟨_, _, rfl, rfl, rfl, fun _ => rfl, rfl⟩
  · rw [if_neg hs]
    simp only [ha]
    have : registerAddr { r with serverId := Discovery.defaultSid r.name a } ip = some a := ha
    rw [this]
    exact ⟨_, _, rfl, rfl, rfl, fun h => absurd h hs, rfl⟩

/-- **C107** The address of a metadata server in its group is the registered one exactly if no address is configured or the
configured one is the detected one.  FINDING: a configured address is registered but not used by the group, so
members behind it are not reached. -/
theorem C107_raft_address (dataDir tmp : Str) (r : Reg) (ip : Str) (i : MetaId) (h : metaId dataDir tmp r ip = some i) :
    i.raftAddr = i.addr ↔ r.serverIp = [] ∨ r.serverIp = ip := by
  have hp : r.port ≠ [] := by
    intro hp
    unfold metaId sid registerAddr at h
    by_cases hs : r.serverId ≠ []
    · rw [if_pos hs] at h; simp [hp] at h
    · rw [if_neg hs] at h; simp [hp] at h
  obtain ⟨i', r', h1, _, _, _, h5⟩ := C107_meta_id dataDir tmp r ip hp
  rw [h] at h1
  cases Option.some.inj h1
  have hr : i.raftAddr = joinHostPort ip r.port := by
    unfold metaId at h
    split at h
    · cases h
    · split at h
      · cases h
      · cases h; rfl
  rw [hr]
  unfold registerAddr serverAddress at h5
  rw [if_neg hp] at h5
  by_cases hi : r.serverIp = []
  · rw [if_pos hi] at h5
    simp only [Option.some.injEq] at h5
    simp [hi, h5]
  · rw [if_neg hi] at h5
    simp only [Option.some.injEq] at h5
    rw [← h5]
    constructor
    · intro e; right; exact (joinHostPort_inj e).symm
    · rintro (e | e)
      · exact absurd e hi
      · rw [e]

/-- A metadata server that is reached at another address than the one it sees. -/
example : metaId [] "/tmp".toList ⟨"1.2.3.4".toList, [], "meta".toList, "80".toList⟩ "10.0.0.1".toList =
    some ⟨("/tmp".toList, "meta-1234-80".toList), "meta-1234-80".toList, "1.2.3.4:80".toList, "10.0.0.1:80".toList⟩ := by decide

/-! ## C107: founding a group -/

theorem parseNode_node {id addr : Str} (h1 : ',' ∉ id) (h2 : ',' ∉ addr) :
    Meta.Members.parseNode (Meta.Members.node id addr) = some (id, addr) := by
  unfold Meta.Members.parseNode Meta.Members.node
  rw [splitOn_append h1, splitOn_of_not_mem h2]

theorem mapM_nodes : ∀ (l : List (Str × Str)), (∀ e ∈ l, ',' ∉ e.1 ∧ ',' ∉ e.2) →
    (l.map fun e => Meta.Members.node e.1 e.2).mapM Meta.Members.parseNode = some l := by
  intro l
  induction l with
  | nil => intro _; rfl
  | cons e l ih =>
    intro h
    rw [List.map_cons, List.mapM_cons, parseNode_node (h e (List.mem_cons_self ..)).1 (h e (List.mem_cons_self ..)).2,
      ih fun x hx => h x (List.mem_cons_of_mem _ hx)]
    rfl

/-- **C107** Servers that are started with the same list of members found the same group: every one of them has all of them as
members, whatever its own address is. -/
theorem C107_found (l : List (Str × Str)) (hl : validConf l) (hc : ∀ e ∈ l, ',' ∉ e.1 ∧ ',' ∉ e.2) (id addr : Str)
    (hid : id ∈ l.map (·.1)) :
    newRaft true true (l.map fun e => Meta.Members.node e.1 e.2) id addr none = .runs (some l) := by
  unfold newRaft founders
  rw [mapM_nodes l hc]
  have : l ≠ [] := hl.1
  cases l with
  | nil => exact absurd rfl this
  | cons e l =>
    simp only [Bool.true_eq_false, if_false]
    unfold bootstrap
    rw [if_pos ⟨hid, hl⟩]

example : newRaft true true ["m1,10.0.0.1:80".toList, "m2,10.0.0.2:80".toList] "m2".toList "10.0.0.2:80".toList none =
    .runs (some [("m1".toList, "10.0.0.1:80".toList), ("m2".toList, "10.0.0.2:80".toList)]) ∧
    validConf [("m1".toList, "10.0.0.1:80".toList), ("m2".toList, "10.0.0.2:80".toList)] := by decide

/-- **C107** Whatever a server founds is the list it was given, or itself alone if the list is empty; it is always a member
of it, and every member has an id and an address of its own. -/
theorem C107_found_only (nodes : List Str) (id addr : Str) (l : List (Str × Str))
    (h : newRaft true true nodes id addr none = .runs (some l)) :
    (nodes.map Meta.Members.parseNode = l.map some ∨ (nodes = [] ∧ l = [(id, addr)])) ∧ id ∈ l.map (·.1) ∧ validConf l := by
  have mm : ∀ (ns : List Str) (l : List (Str × Str)), ns.mapM Meta.Members.parseNode = some l →
      ns.map Meta.Members.parseNode = l.map some := by
    intro ns
    induction ns with
    | nil => intro l h; cases h; rfl
    | cons n ns ih =>
      intro l h
      rw [List.mapM_cons] at h
      cases hn : Meta.Members.parseNode n with
      | none => rw [hn] at h; cases h
      | some e =>
        rw [hn] at h
        cases hm : ns.mapM Meta.Members.parseNode with
        | none => rw [hm] at h; cases h
        | some l' =>
          rw [hm] at h
          cases h
          simp [hn, ih l' hm]
  unfold newRaft at h
  simp only [Bool.true_eq_false, if_false] at h
  have fin : ∀ l', bootstrap id none l' = some l → l' = l ∧ id ∈ l.map (·.1) ∧ validConf l := by
    intro l' hb
    unfold bootstrap at hb
    simp only at hb
    split at hb
    · rename_i hc
      cases hb
      exact ⟨rfl, hc⟩
    · cases hb
  unfold founders at h
  cases hm : nodes.mapM Meta.Members.parseNode with
  | none => rw [hm] at h; cases h
  | some l' =>
    rw [hm] at h
    cases l' with
    | nil =>
      simp only [Started.runs.injEq] at h
      obtain ⟨e, h2⟩ := fin _ h
      have hnil : nodes = [] := by
        have := mm _ _ hm
        simpa using this
      exact ⟨.inr ⟨hnil, e.symm⟩, h2⟩
    | cons e l' =>
      simp only [Started.runs.injEq] at h
      obtain ⟨e', h2⟩ := fin _ h
      rw [← e']
      exact ⟨.inl (mm _ _ hm), by rw [e']; exact h2⟩

/-- The property: servers with the same configuration file found one group. -/
def C107_group_statement : Prop :=
  ∀ (nodes : List Str) (id id' addr addr' : Str) (l l' : List (Str × Str)),
    newRaft true true nodes id addr none = .runs (some l) → newRaft true true nodes id' addr' none = .runs (some l') → l = l'

/-- **C107** It holds if the file names the members.  Partial: not for the empty list. -/
theorem C107_group_partial (nodes : List Str) (hn : nodes ≠ []) (id id' addr addr' : Str) (l l' : List (Str × Str))
    (h : newRaft true true nodes id addr none = .runs (some l)) (h' : newRaft true true nodes id' addr' none = .runs (some l')) :
    l = l' := by
  have a := (C107_found_only _ _ _ _ h).1
  have b := (C107_found_only _ _ _ _ h').1
  rcases a with a | a
  · rcases b with b | b
    · rw [a] at b
      have inj : ∀ (x y : List (Str × Str)), x.map some = y.map some → x = y := by
        intro x
        induction x with
        | nil => intro y h; cases y with | nil => rfl | cons _ _ => cases h
        | cons u x ih =>
          intro y h
          cases y with
          | nil => cases h
          | cons v y =>
            simp only [List.map_cons, List.cons.injEq, Option.some.injEq] at h
            rw [h.1, ih y h.2]
      exact inj _ _ b
    · exact absurd b.1 hn
  · exact absurd a.1 hn

/-- **C107** FINDING.  With an empty list every server founds a group of its own: two groups serve the same slots. -/
theorem C107_alone (id addr : Str) (h1 : id ≠ []) (h2 : addr ≠ []) :
    newRaft true true [] id addr none = .runs (some [(id, addr)]) := by
  unfold newRaft founders bootstrap
  simp [validConf, h1, h2]

theorem C107_group_statement_fails : ¬ C107_group_statement := by
  intro h
  have := h [] ['a'] ['b'] ['x'] ['y'] _ _ (C107_alone ['a'] ['x'] (by decide) (by decide)) (C107_alone ['b'] ['y'] (by decide) (by decide))
  revert this
  decide

/-- **C107** A server that is not in the list founds nothing: it waits until it is added. -/
theorem C107_not_listed (nodes : List Str) (hn : nodes ≠ []) (id addr : Str)
    (h : ∀ n ∈ nodes, ∀ a, Meta.Members.parseNode n ≠ some (id, a)) :
    newRaft true true nodes id addr none = .runs none ∨ newRaft true true nodes id addr none = .panic := by
  cases hr : newRaft true true nodes id addr none with
  | disabled =>
    unfold newRaft at hr
    simp only [Bool.true_eq_false, if_false] at hr
    split at hr <;> cases hr
  | panic => exact .inr rfl
  | runs c =>
    cases c with
    | none => exact .inl rfl
    | some l =>
      exfalso
      obtain ⟨h1, h2, _⟩ := C107_found_only _ _ _ _ hr
      rcases h1 with h1 | h1
      · obtain ⟨⟨i, a⟩, he, hi⟩ := List.mem_map.1 h2
        have : some (i, a) ∈ nodes.map Meta.Members.parseNode := by rw [h1]; exact List.mem_map.2 ⟨_, he, rfl⟩
        obtain ⟨n, hn, e⟩ := List.mem_map.1 this
        simp only at hi
        rw [hi] at e
        exact h n hn a e
      · exact hn h1.1

/-- **C107** A server that is in a group already stays in it when it is started again, whatever the list says now, as long as every
item of the list is well formed; otherwise it does not start. -/
theorem C107_stays (boot : Bool) (nodes : List Str) (id addr : Str) (c : List (Str × Str)) :
    newRaft true boot nodes id addr (some c) =
      (if boot = true ∧ ∃ n ∈ nodes, Meta.Members.parseNode n = none then .panic else .runs (some c)) := by
  have hm : nodes.mapM Meta.Members.parseNode = none ↔ ∃ n ∈ nodes, Meta.Members.parseNode n = none := by
    induction nodes with
    | nil => simp
    | cons n ns ih =>
      rw [List.mapM_cons]
      cases hn : Meta.Members.parseNode n with
      | none => simp [hn]
      | some e =>
        cases hs : ns.mapM Meta.Members.parseNode with
        | none =>
          rw [hs] at ih
          obtain ⟨x, hx, e⟩ := ih.1 rfl
          simp only [Option.bind_eq_bind, Option.bind_some, Option.bind_none, true_iff]
          exact ⟨x, List.mem_cons_of_mem _ hx, e⟩
        | some l =>
          rw [hs] at ih
          simp only [reduceCtorEq, false_iff, not_exists, not_and] at ih
          simp [hn]
          exact ih
  unfold newRaft
  cases boot with
  | false => simp
  | true =>
    simp only [Bool.true_eq_false, if_false, true_and]
    unfold founders
    by_cases hx : ∃ n ∈ nodes, Meta.Members.parseNode n = none
    · rw [if_pos hx, hm.2 hx]
    · rw [if_neg hx]
      cases hq : nodes.mapM Meta.Members.parseNode with
      | none => exact absurd (hm.1 hq) hx
      | some l => cases l <;> rfl

example : newRaft true true ["broken".toList] "m1".toList "10.0.0.1:80".toList (some [("m1".toList, "10.0.0.1:80".toList)]) = .panic ∧
    newRaft true true [] "m1".toList "10.0.0.9:80".toList (some [("m1".toList, "10.0.0.1:80".toList)]) =
      .runs (some [("m1".toList, "10.0.0.1:80".toList)]) := by decide

/-- What the directories of a machine hold of groups. -/
abbrev Stored := Str × Str → Option (List (Str × Str))

/-- Starting a metadata server: metaserver/config/config.go:38-54 and app.go:30. -/
def startMeta (dataDir tmp : Str) (r : Reg) (boot : Bool) (nodes : List Str) (disk : Stored) (ip : Str) : Option (MetaId × Started) :=
  (metaId dataDir tmp r ip).map fun i => (i, newRaft true boot nodes i.id i.raftAddr (disk i.dir))

/-- **C107** FINDING.  A metadata server with a configured id that founded a group alone and is started at another address is still in
its group, but the group knows it at the old address, where nobody answers. -/
theorem C107_stale_address (dataDir tmp : Str) (r : Reg) (ip ip' : Str) (disk : Stored) (hid : r.serverId ≠ []) (hp : r.port ≠ [])
    (hne : ip ≠ ip') (hd : disk (if dataDir = [] then tmp else dataDir, r.serverId) = none) :
    ∃ i l, startMeta dataDir tmp r true [] disk ip = some (i, .runs (some l)) ∧
      ∃ i', startMeta dataDir tmp r true [] (fun d => if d = i.dir then some l else disk d) ip' = some (i', .runs (some l)) ∧
        ∀ e ∈ l, e.1 = i'.id ∧ e.2 ≠ i'.raftAddr := by
  have hm : ∀ x, ∃ a, metaId dataDir tmp r x = some ⟨(if dataDir = [] then tmp else dataDir, r.serverId), r.serverId, a, joinHostPort x r.port⟩ := by
    intro x
    unfold metaId sid
    rw [if_pos hid]
    simp only
    unfold registerAddr
    rw [if_neg hp]
    by_cases hi : r.serverIp = []
    · rw [if_pos hi]; exact ⟨_, rfl⟩
    · rw [if_neg hi]; exact ⟨_, rfl⟩
  obtain ⟨a, h1⟩ := hm ip
  obtain ⟨a', h2⟩ := hm ip'
  have hj : ∀ x, joinHostPort x r.port ≠ [] := by
    intro x; obtain ⟨y, hy, _⟩ := joinHostPort_split x []; rw [hy]; simp
  refine ⟨⟨(if dataDir = [] then tmp else dataDir, r.serverId), r.serverId, a, joinHostPort ip r.port⟩,
    [(r.serverId, joinHostPort ip r.port)], ?_,
    ⟨(if dataDir = [] then tmp else dataDir, r.serverId), r.serverId, a', joinHostPort ip' r.port⟩, ?_, ?_⟩
  · unfold startMeta
    rw [h1]
    simp only [Option.map_some, hd]
    rw [C107_alone _ _ hid (hj ip)]
  · unfold startMeta
    rw [h2]
    simp only [Option.map_some, if_true]
    rw [C107_stays]
    simp
  · intro e he
    simp only [List.mem_singleton] at he
    rw [he]
    exact ⟨rfl, fun e => hne (joinHostPort_inj e)⟩

/-- **C107** FINDING.  Without a configured id and address a metadata server at another address founds a new group, without the
metadata of the old one, which is still in the directory that is named after the old address. -/
theorem C107_new_group (dataDir tmp : Str) (r : Reg) (ip ip' : Str) (disk : Stored) (hid : r.serverId = []) (hip : r.serverIp = [])
    (hp : r.port ≠ []) (hne : squeeze (joinHostPort ip r.port) ≠ squeeze (joinHostPort ip' r.port)) (hd : ∀ d, disk d = none) :
    ∃ i l, startMeta dataDir tmp r true [] disk ip = some (i, .runs (some l)) ∧
      ∃ i' l', startMeta dataDir tmp r true [] (fun d => if d = i.dir then some l else disk d) ip' = some (i', .runs (some l')) ∧
        i'.dir ≠ i.dir ∧ l' ≠ l := by
  have hs : ∀ x, sid r x = some (Discovery.defaultSid r.name (joinHostPort x r.port),
      { r with serverId := Discovery.defaultSid r.name (joinHostPort x r.port) }) := by
    intro x
    unfold sid registerAddr serverAddress
    rw [if_neg (by simp [hid]), if_neg hp, if_pos hip]
  let dir := if dataDir = [] then tmp else dataDir
  let me : Str → MetaId := fun x => ⟨(dir, Discovery.defaultSid r.name (joinHostPort x r.port)),
    Discovery.defaultSid r.name (joinHostPort x r.port), joinHostPort x r.port, joinHostPort x r.port⟩
  have hm : ∀ x, metaId dataDir tmp r x = some (me x) := by
    intro x
    unfold metaId
    rw [hs x]
    simp only
    unfold registerAddr serverAddress
    simp only [if_neg hp, if_pos hip]
    rfl
  have hj : ∀ x, joinHostPort x r.port ≠ [] := by
    intro x; obtain ⟨y, hy, _⟩ := joinHostPort_split x []; rw [hy]; simp
  have hn : ∀ x, Discovery.defaultSid r.name x ≠ [] := by intro x; unfold Discovery.defaultSid; simp
  have hsid : Discovery.defaultSid r.name (joinHostPort ip' r.port) ≠ Discovery.defaultSid r.name (joinHostPort ip r.port) := by
    intro e
    simp only [Discovery.defaultSid, List.append_cancel_left_eq, List.cons.injEq, true_and] at e
    exact hne e.symm
  have hdir : (me ip').dir ≠ (me ip).dir := by
    intro e
    exact hsid (Prod.mk.inj e).2
  refine ⟨me ip, [((me ip).id, (me ip).raftAddr)], ?_, me ip', [((me ip').id, (me ip').raftAddr)], ?_, hdir, ?_⟩
  · unfold startMeta
    rw [hm]
    simp only [Option.map_some, hd]
    rw [C107_alone _ _ (hn _) (hj ip)]
  · unfold startMeta
    rw [hm]
    simp only [Option.map_some, if_neg hdir, hd]
    rw [C107_alone _ _ (hn _) (hj ip')]
  · intro e
    simp only [List.cons.injEq, Prod.mk.injEq, and_true] at e
    exact hsid e.1

end Verif.Identity
