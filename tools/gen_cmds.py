#!/usr/bin/env python3
"""Generates lean/Verif/Hci/CmdTable.lean from /repo/linux/hci/cmd/cmd_gen.go."""
import re
src=open('/repo/linux/hci/cmd/cmd_gen.go').read()
def line(pos): return src.count('\n',0,pos)+1
TY={'uint8':'.u8','int8':'.i8','uint16':'.u16','uint64':'.u64'}
def ty(t):
    if t in TY: return TY[t]
    if t=='[]uint16': return None
    m=re.fullmatch(r'\[(\d+)\]byte',t); return '.bytes %s'%m.group(1)
cmds=[];rps=[];bad=[]
for m in re.finditer(r'^type (\w+) struct \{\n(.*?)^\}',src,re.S|re.M):
    n=m.group(1); fs=[l.split() for l in m.group(2).split('\n') if l.strip()]
    fs=[(a[0],ty(a[1])) for a in fs]
    fl='['+', '.join('("%s", %s)'%f for f in fs)+']'
    l0=line(m.start())
    op=re.search(r'func \(c \*%s\) OpCode\(\) int \{ return 0x(\w+)<<10 \| 0x(\w+) \}'%n,src)
    if op:
        ln=re.search(r'func \(c \*%s\) Len\(\) int \{ return (-?\d+) \}'%n,src)
        ma=re.search(r'func \(c \*%s\) Marshal\(b \[\]byte\) error \{\n\treturn marshal\(c, b\)\n\}'%n,src)
        l1=line((ma or ln).end())
        if not ma: bad.append((n,l0,l1)); continue
        cmds.append('  { name := "%s", opCode := 0x%02x <<< 10 ||| 0x%04x, len := %s, fields := %s } -- cmd_gen.go:%d-%d'%(n,int(op.group(1),16),int(op.group(2),16),ln.group(1),fl,l0,l1))
    else:
        un=re.search(r'func \(c \*%s\) Unmarshal\(b \[\]byte\) error \{\n\treturn unmarshal\(c, b\)\n\}'%n,src)
        assert un
        rps.append('  { name := "%s", fields := %s } -- cmd_gen.go:%d-%d'%(n,fl,l0,line(un.end())))
def tbl(rows):
    out=[]
    for i,r in enumerate(rows):
        a,b=r.rsplit(' -- ',1)
        out.append(a+(',' if i<len(rows)-1 else ' ]')+' -- '+b)
    out[0]='  ['+out[0][1:]
    return '\n'.join(out)
o='''import Verif.Hci.CmdEnc

/-!
# The commands and replies of linux/hci/cmd/cmd_gen.go

Generated by tools/gen_cmds.py from the Go source: for each struct its fields in order, the result of `OpCode()` and of `Len()`.
Not in the table, because it has no `Marshal` method and so is not a `Command`: %s.
-/

namespace Ble.HciCmd

/-- Every type of linux/hci/cmd with `OpCode`, `Len` and `Marshal`. -/
def commands : List Command :=
%s

/-- Every type of linux/hci/cmd with `Unmarshal`. -/
def replies : List Reply :=
%s

end Ble.HciCmd
'''%(', '.join('`%s` (cmd_gen.go:%d-%d)'%b for b in bad),tbl(cmds),tbl(rps))
open('/verif/lean/Verif/Hci/CmdTable.lean','w').write(o)
print(len(cmds),len(rps),bad)
