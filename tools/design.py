"""Writes DESIGN.md: tools/design_head.md, a table made from MANIFEST.json, properties.jsonl and METHOD below, tools/design_tail.md."""
import json,re,glob,os
METHOD={
'Adv':'functional model with panics; invariant of append; parser∘builder round trip by induction on records; independent TLV specification',
'AdvHist':'state machine of the scan history; induction over event histories against a list specification',
'AdvView':'heap of shared objects refining the history model; induction over event histories',
'Advertise':'functional; longest fitting prefix by induction on the UUID list',
'Async':'transition system (reader, async queue, server goroutine, caller); invariants by induction over runs',
'AttPdu':'generated table of all PDU types against a specification table; generic set/get lemmas',
'AttDb':'functional; induction over services; index arithmetic',
'AttRead':'loop invariants over the attribute table against list specifications',
'AttServer':'case analysis of every opcode, loop invariants, exact panic conditions',
'AttWrite':'case analysis; induction over the prepare queue',
'Bond':'refinement of file + JSON laws to a partial map; failure and crash outcomes as environment',
'BondConc':'interleavings of lock/read/write steps; linearisation points',
'Build':'functional; the specification looks at the list of builder calls; induction',
'Cache':'refinement of file + JSON laws to a partial map',
'Cccd':'per-connection state machine; invariant over write histories',
'ClientCalls':'functional, over an arbitrary peer (exchange function); case analysis of the response',
'ClientLoop':'transition system with ghost request numbers; invariants by induction over runs',
'Cmd':'transition system (callers, opcode locks, credits, event loop, timeouts); invariants by induction over runs',
'CmdEnc':'generated table of all commands; generic marshalling lemma; table against the Core specification',
'Coc':'transition system of channels and credits; invariants',
'Connect':'transition system of Connect/Find goroutines; invariants by induction over runs',
'Conns':'state machine over HCI packets; invariant of the connection table',
'Device':'controller specification as state machine composed with the advertising calls',
'Dial':'functional; text and codec lemmas',
'DialConn':'transition system of Dial, controller and event loop; invariants',
'Discovery':'composition of the client loop with the server; induction on the remaining handle range',
'DiscoveryChars':'composition of the client loops with the server; induction on services, characteristics, descriptors',
'Encrypt':'functional composition of store, command encoding and event history',
'Evt':'functional accessors with panics; arithmetic of offsets',
'Flow':'transition system (socket, event loop, queues, readers, callers); invariants and a decreasing measure',
'H4':'simulation with a whole-stream parser, for every chunking',
'H4Conc':'transition system; invariant packets made = taken ++ held ++ queued ++ pending',
'HciPkt':'functional model of packet and event dispatch with panics; exact panic condition',
'Indicate':'transition system of indication, reader, confirmation, timeout; invariants',
'Init':'functional over controller answers',
'L2cap':'induction on fragments, both directions, composition',
'Locking':'transition system of the client lock; invariant and decreasing measure',
'Air':'composition of the client, L2CAP and server models; simulation over every client call',
'SrvAnswers':'composition of the goroutine model with the attribute server; invariant: state and answers are those of the sequential loop',
'SrvBytes':'simulation by the transition system of the server; induction on frames over the L2CAP model',
'DialFrag':'overlay of fragments on the transition system of the client; invariant and decreasing measure, count of complete PDUs',
'SrvFrag':'overlay of fragments on the transition system of the server; simulation by the model without fragments, decreasing measure',
'LinkEnc':'transition system over that of the links; invariant on the place of each waiting report, refinement of the links model',
'DiscHist':'invariant over histories of calls, each with failures injected at any request; simulation by the server without failures',
'FailedDisc':'simulation with failures injected at any request; growth invariants of the loops',
'SrvEnd':'transition system of the three goroutines of an accepted connection; invariant on where every received PDU is, decreasing measure',
'Ending':'transition system of the five goroutines of a connection; invariant, decreasing measure, counting of unread packets, exact characterization of the leak',
'MtuHist':'the client model run over histories of calls and of MTU requests of the peer; fold specification of the sizes, exact crash condition, induction on histories',
'CocObj':'the table of C37 with the objects made so far; invariant, exact effect of every method on every object',
'PoolLive':'the transition system of C30; steps of a waiting clean-up, decreasing measure, exact characterization of the hung states',
'Guard':'programs of lock and variable steps for every function; a lock discipline checked for all paths of each function by evaluation, kept by all interleavings by an invariant; rank argument for deadlocks',
'ConnHandle':'from the invariant of the connection table',
'BondCrash':'transition system of the lock, the file, failures and crashes; linearization points in a history variable, invariant; corollaries from the sequential theorems',
'CacheConc':'transition system of the lock, the file and crashes; linearization points in a history variable, invariant',
'Links2':'the same, with a second invariant for histories in which Close and reuse of handles do not overlap',
'Links':'transition system of host and controller; invariant relating connections, links and queued events',
'Readers':'transition system over the connection table with one reader per connection; refinement to Conns, invariants about the position of each reader',
'SmpKeySize':'corollaries of the honest-exchange theorems with arbitrary size octets',
'ExecBuf':'invariant over all sequences of PDUs of the memory of the queue, tied to the specification of C155',
'SmpSecReq':'equations of the effects of one step from an arbitrary state',
'Kept':'the transition system of the two goroutines with shared buffers; invariant from the handling of a request to the next',
'SmpNonce':'relations over handlers: only a confirm value triggers a nonce, and the nonce in use opens the last confirm value sent; attacks as equations of histories',
'AirSub':'composition of the subscription, CCCD, L2CAP and client models; simulation by a view with the active subscriptions, invariant over histories',
'FindType':'exact result of the search loop by induction; the declarations of a table are the list of its services',
'CmdOwn':'the transition system of commands with a controller that answers each once; invariant with the calls whose answers are outstanding or on their way',
'BondFail':'The file holds the bonds of the calls that took effect, for every history with failures; each call moves between four kinds of file states.',
'Exact':'Unsuffixed companions of partial theorems: the part of the property that holds is a property of its own.',
'SmpOrigin':'induction over histories of messages: an invariant that gives the bond of the context an origin, and the four handlers that change it',
'GattHist':'induction over histories of service calls: services with the number of CCCDs they have got, then the theorems about a table',
'CacheProf':'Composition of the discovery model with the cache model; induction over histories of calls with the invariant that every cached profile is the table of its peer; negative statements by composing the exact descriptions of single calls.',
'IndClose':'Transition system on top of that of C60; invariant, and a measure that every step of the server itself decreases.',
'PktEff':'Case analysis over the dispatch, induction over the entries of Number Of Completed Packets.',
'InitSeq':'The packets of the nine commands are computed; each call of send appends its packet or nothing; the masks are followed through the calls.',
'Queue':'Every request of the other kinds is shown to keep table, queue and log (induction over the loops of the server); the writing requests are computed; induction over the sequence.',
'Whole2':'From the theorems of the partial properties they complete.',
'Errs':'calls of the error handler as an output of the handlers of packets; agreement with AdvHist; specification as an inductive relation Tells, shown functional',
'Whole':'exact conditions and conditional statements derived from the partial claims',
'DialsLive':'invariant (one command or answer per held lock), decreasing measure, enabled step',
'Reenter':'transition system of calls, opcode locks, handlers and the event loop; lock invariant, stable deadlock states, constructed runs',
'SigConc':'transition system with one step per access to shared state; invariants, counterexample runs',
'CocRx':'transition system of receiver, callers and readers; invariant over the table and the channels',
'Interrupt':'transition system of calls, signals, contexts and goroutines; invariants',
'Serial':'composition of the H4, packet dispatch, connection table, L2CAP and writer models',
'Dials':'transition system with any number of calls; invariants (permutation of connections, provenance of targets)',
'EvtGen':'generated table of all accessors compared with a table from the specification; induction over the parameters',
'Pipe':'refinement of the sequential server by an invariant over the shared buffers; measure for progress',
'Options':'functional fold over options; last-writer specification',
'PairAddr':'composition of initPairingContext with the pairing theorems',
'Params':'decision procedure against the arithmetic of the specification',
'Peripheral':'transition system of advertising, connections, accept loop; invariants',
'Pool':'transition system of writers, completions, clean-ups; conservation invariant',
'ReadLong':'loop induction against the server',
'Registry':'functional model of the registry; induction over calls',
'Scanning':'transition system of scan calls, opcode lock, controller, event loop; invariants',
'Shutdown':'transition system of Close, loops and callers; invariants and enabledness',
'Signal':'codec round trips; induction over the commands of a frame',
'SmpBond':'Hoare logic over handlers, trace invariant',
'SmpCrypto':'functional equality with the specification functions for every MAC, cipher, curve',
'SmpExamples':'instantiation with toy primitives','SmpFrame':'Hoare logic over handlers',
'SmpHonest':'symbolic execution of the handlers against a specification responder',
'SmpLegacy':'symbolic execution of the handlers against a specification responder',
'SmpLive':'exact panic condition of every handler; trace invariant',
'SmpMethod':'finite table lifted to all bytes','SmpPair':'trace invariant',
'SmpPasskey':'explicit attacker strategy, induction over the 20 rounds','SmpReject':'symbolic execution',
'Sock':'functional model of the system calls over a descriptor table','SockConc':'transition system of Read/Write/Close and foreign opens; invariants',
'Subscriptions':'state machine over call histories; invariant','Tx':'transition system of writers; interleaving invariant, composed with recombination',
'Uuid':'structural induction on characters and bytes',
}
os.chdir('/verif')
where={}
imports={}
for f in glob.glob('lean/Verif/Props/*.lean'):
    b=os.path.basename(f)[:-5]
    t=open(f).read()
    imports[b]=[x for x in re.findall(r'^import Verif\.(\S+)',t,re.M) if not x.startswith('Props.')]
    for n in re.findall(r'^(?:private )?theorem (\S+)',t,re.M): where.setdefault(n.split('.')[-1],[]).append(b)
props={}
for l in open('properties.jsonl'):
    d=json.loads(l); props[d['id']]=d
rows=[]
m=json.load(open('MANIFEST.json'))
for c in sorted(m['claims'],key=lambda c:int(c['property'][1:])):
    d=props[c['property']]
    # the modules named by the theorem's own namespace, else the only / first one
    mods=[]
    for t in c['theorems']:
        ps=where.get(t.split('.')[-1],[])
        ns=[p for p in ps if ('.'+p+'.') in t] or ps
        if ns and ns[0] not in mods: mods.append(ns[0])
    models=[]
    def add(x):
        if 'Lemmas' in x or x.startswith('Props.') or x.split('.')[-1] in ('Hoare','Trace','Handlers'):
            s=open('lean/Verif/%s.lean'%x.replace('.','/')).read()
            for y in re.findall(r'^import Verif\.(\S+)',s,re.M): add(y)
        elif x not in models and x not in ('Basic','Trans'):
            models.append(x)
            if 'Spec' in x:
                s=open('lean/Verif/%s.lean'%x.replace('.','/')).read()
                for y in re.findall(r'^import Verif\.(\S+)',s,re.M): add(y)
    for b in mods:
        own=[x for x in imports[b]]
        for x in own: add(x)
        if not own: add('Props.'+b)
    go=sorted({a.split(':')[0] for a in d['anchors']})
    rows.append('| %s | %s | %s | %s | %s | %s | %s |'%(c['property'],d['title'],', '.join(go),', '.join(models),', '.join(mods),'; '.join(dict.fromkeys(METHOD[b] for b in mods)),c['status']))
head=open('tools/design_head.md').read(); tail=open('tools/design_tail.md').read()
open('DESIGN.md','w').write(head+'\n| id | property | code | model (under Verif/) | theorems in Props/ | how | status |\n|----|----|----|----|----|----|----|\n'+'\n'.join(rows)+'\n\n'+tail)
