#!/usr/bin/env python3
"""Generates lean/Verif/Hci/EvtTable.lean from /repo/linux/hci/evt/evt_gen.go."""
import re
src=open('/repo/linux/hci/evt/evt_gen.go').read()
def line(pos): return src.count('\n',0,pos)+1
total=len(re.findall(r'^func ',src,re.M)); used=0
types=list(re.finditer(r'^type (\w+) \[\]byte',src,re.M))
rows=[]
for k,m in enumerate(types):
    n=m.group(1)
    code=re.search(r'^const %sCode = 0x(\w+)'%n,src,re.M).group(1)
    sub=re.search(r'^const %sSubCode = 0x(\w+)'%n,src,re.M)
    fs=[];last=m.end();minlen='none'
    for g in re.finditer(r'^func \(r %s\) (\w+)\(\) (uint8|uint16|uint64|\[6\]byte|bool) \{(.*?)\}\n(?=\n|\Z)'%n,src+'\n',re.S|re.M):
        used+=1; last=g.end()
        name,ret,body=g.group(1),g.group(2),' '.join(g.group(3).split())
        x=re.fullmatch(r'return r\[(\d+)\]',body)
        y=re.fullmatch(r'return binary.LittleEndian.Uint(16|64)\(r\[(\d+):\]\)',body)
        z=re.fullmatch(r'b := \[6\]byte\{\} copy\(b\[:\], r\[(\d+):\]\) return b',body)
        w=re.fullmatch(r'return len\(r\) >= (\d+)',body)
        if x: assert ret=='uint8'; fs.append((name,'.u8',int(x.group(1))))
        elif y: assert ret=='uint'+y.group(1); fs.append((name,'.u'+y.group(1),int(y.group(2))))
        elif z: assert ret=='[6]byte'; fs.append((name,'.addr',int(z.group(1))))
        elif w: assert (n,name)==('CommandStatus','Valid'); minlen='some '+w.group(1)
        else: raise Exception((n,name,body))
    rows.append('{ name := "%s", code := 0x%s, sub := %s, valid := %s, fields := [%s] }|evt_gen.go:%d-%d'%(n,code,'some 0x'+sub.group(1) if sub else 'none',minlen,
      ', '.join('⟨"%s", %s, %d⟩'%f for f in fs),line(m.start()),line(min(last,len(src)-1)-1)))
assert used==total,(used,total)
out=[]
for i,r in enumerate(rows):
    a,b=r.split('|')
    out.append(('  [ ' if i==0 else '    ')+a+(',' if i<len(rows)-1 else ' ]')+' -- '+b)
open('/verif/lean/Verif/Hci/EvtTable.lean','w').write('''import Verif.Hci.EvtGet
set_option autoImplicit false

/-!
# The event types of linux/hci/evt/evt_gen.go

Generated by tools/gen_evt.py from the Go source: for each type the constants with its event and subevent code and all its methods: the getters with their type and offset, and the bound of `Valid` where there is one.
-/

namespace Ble.EvtGen

/-- Every type of evt_gen.go, with all its methods. -/
def evts : List Evt :=
%s

end Ble.EvtGen
'''%'\n'.join(out))
print(len(rows),used,total)
