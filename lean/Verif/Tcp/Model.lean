/-
How a team of workers on TCP is started and connected: command lines for the workers (libensemble/tools/parse_args.py), the launch
(libensemble/libE.py, `form_command` of libensemble/utils/launcher.py), signing up and queues (libensemble/comms/tcp_mgr.py).

Simplifications: words that are numbers are numbers; a text is the list of its words (`shlex.split` splits it at blanks); quotation marks and braces
within texts are left out; sockets and their errors, time and logging are left out.
-/
namespace Verif.Tcp

/-- A word of a command line; `tunnel p q` is `p:localhost:q`. -/
inductive Word
  | text (s : String)
  | num (n : Nat)
  | tunnel (p q : Nat)
deriving DecidableEq, Repr

/-- The entries of `specs` that `libE_tcp_start_team` makes (libE.py:570-577); `worker_ip` and `tunnel_port` only with a list of hosts. -/
structure Specs where
  ip : Word
  port : Nat
  authkey : Word
  workerID : Nat
  workerIp : Option Word := none
  tunnelPort : Option Nat := none

/-- What a template is made of: text that has its words, or entries in braces. -/
inductive Piece
  | lit (ws : List Word)
  | ip | port | authkey | workerID | workerIp | tunnelPort
  /-- `{tunnel_port}:localhost:{manager_port}` -/
  | tunnel
deriving DecidableEq, Repr

/-- `fmt.format(**specs)` of a piece; `none`: `KeyError` (launcher.py:21-23). -/
def Piece.fill (s : Specs) : Piece → Option (List Word)
  | .lit ws => some ws
  | .ip => some [s.ip]
  | .port => some [.num s.port]
  | .authkey => some [s.authkey]
  | .workerID => some [.num s.workerID]
  | .workerIp => s.workerIp.map fun x => [x]
  | .tunnelPort => s.tunnelPort.map fun p => [.num p]
  | .tunnel => s.tunnelPort.map fun p => [.tunnel p s.port]

/-- All pieces of a string, or nothing if an entry is missing. -/
def fillAll (s : Specs) : List Piece → Option (List Word)
  | [] => some []
  | p :: ps => match p.fill s, fillAll s ps with
    | some a, some b => some (a ++ b)
    | _, _ => none

/-- `form_command` (launcher.py:14-25): each string of the template is filled and split into words; strings with a missing entry are dropped. -/
def form (cmd : List (List Piece)) (s : Specs) : List Word := cmd.flatMap fun ps => (fillAll s ps).getD []

/-- `nworkers or 4`. -/
def or4 (n : Nat) : Nat := if n = 0 then 4 else n

/-- The command of a worker by `_tcp_parse_args` (parse_args.py:94-112); `python` and `script`: the words of `sys.executable` and `sys.argv[0]`; `n`: the
value of `--nworkers`, 0 if absent. -/
def tcpCmd (python script : List Word) (n : Nat) : List (List Piece) :=
  [[.lit python], [.lit script], [.lit [.text "--comms"]], [.lit [.text "client"]], [.lit [.text "--server"]], [.ip], [.port], [.authkey],
   [.lit [.text "--workerID"]], [.workerID], [.lit [.text "--nworkers"]], [.lit [.num (or4 n)]]]

/-- The words of the remote command in `_ssh_parse_args` (parse_args.py:122-135), joined to one string with blanks. -/
def remote (python script : List Word) (n : Nat) : List Piece :=
  [.lit python, .lit script, .lit [.text "--comms"], .lit [.text "client"], .lit [.text "--server"], .lit [.text "localhost"], .tunnelPort, .authkey,
   .lit [.text "--workerID"], .workerID, .lit [.text "--nworkers"], .lit [.num n]]

/-- `_ssh_parse_args` (parse_args.py:115-140). -/
def sshCmd (python script pwd : List Word) (n : Nat) : List (List Piece) :=
  [[.lit [.text "ssh"]], [.lit [.text "-R"]], [.tunnel], [.workerIp], .lit [.text "(", .text "cd"] :: .lit pwd :: .lit [.text ";"] :: (remote python script n ++ [.lit [.text ")"]])]

/-- `nworkers` and `workers` in `libE_tcp_mgr` (libE.py:593-598): hosts are only looked at without `nworkers`. -/
def team (nworkers : Nat) (workers : List Word) : Nat × Option (List Word) :=
  if nworkers ≠ 0 then (nworkers, none) else (workers.length, some workers)

/-- The entries for worker `w` (libE.py:570-577). -/
def specsFor (ip auth : Word) (port : Nat) (workers : Option (List Word)) (w : Nat) : Specs :=
  { ip := ip, port := port, authkey := auth, workerID := w, workerIp := workers.bind fun l => l[w - 1]?, tunnelPort := workers.map fun _ => 0x71BE }

/-- The options a client looks at (parse_args.py:9-32). -/
structure Args where
  comms : Option Word := none
  server : Option (Word × Word × Word) := none
  workerID : Option Nat := none
  nworkers : Option Nat := none
deriving DecidableEq, Repr

/-- Words that begin with `-` are options for `argparse`. -/
def Word.opt : Word → Bool
  | .text s => s.toList.head? == some '-'
  | _ => false

/-- `parser.parse_known_args` (parse_args.py:233) for these four options written in full; other words are skipped; too few values for `--server` are
an error. -/
def parse : List Word → Args → Option Args
  | [], a => some a
  | .text "--comms" :: v :: ws, a => if v.opt then parse (v :: ws) a else parse ws { a with comms := some v }
  | .text "--server" :: x :: y :: z :: ws, a => if x.opt || y.opt || z.opt then none else parse ws { a with server := some (x, y, z) }
  | .text "--workerID" :: .num n :: ws, a => parse ws { a with workerID := some n }
  | .text "--nworkers" :: .num n :: ws, a => parse ws { a with nworkers := some n }
  | _ :: ws, a => parse ws a

/-- What a client knows (`_client_parse_args`, parse_args.py:143-155). -/
structure Client where
  ip : Word
  port : Nat
  authkey : Word
  workerID : Option Nat
  nworkers : Nat
deriving DecidableEq, Repr

/-- A started process: the script that python runs, and what `parse_args` in it finds (parse_args.py:233-258); `none` if it fails or is no client. -/
def client : List Word → Option (Word × Client)
  | _ :: script :: ws =>
    match parse ws {} with
    | some { comms := some (.text "client"), server := some (ip, .num port, auth), workerID := w, nworkers := n } =>
      some (script, { ip := ip, port := port, authkey := auth, workerID := w, nworkers := or4 (n.getD 0) })
    | _ => none
  | _ => none

/-! Signing up -/

/-- The queues of the server (`get_queue`, tcp_mgr.py:15-18, `get_inbox` and `get_outbox`, 52-58 and 108-114). -/
inductive Q
  | inbox (w : Nat)
  | outbox (w : Nat)
deriving DecidableEq, Repr

/-- The pair of queues from which one side reads and to which it writes. -/
structure Comm where
  read : Q
  write : Q
deriving DecidableEq, Repr

/-- `ClientQCommManager.__enter__` (tcp_mgr.py:120-122). -/
def workerComm (id : Nat) : Comm := { read := .inbox id, write := .outbox id }

/-- `await_workers` (tcp_mgr.py:64-73): `shared`: the numbers in the shared queue, in the order in which workers have signed up (tcp_mgr.py:101-102); `none` if fewer than
`n` have signed up: the manager waits. -/
def await (n : Nat) (shared : List Nat) : Option (List Comm) :=
  if n ≤ shared.length then some ((shared.take n).map fun id => { read := .outbox id, write := .inbox id }) else none

end Verif.Tcp
