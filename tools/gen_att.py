#!/usr/bin/env python3
"""Generates lean/Verif/Att/PduTable.lean from /repo/linux/att/att_gen.go."""
import re
src=open('/repo/linux/att/att_gen.go').read()
def line(pos): return src.count('\n',0,pos)+1
flat=src
rows=[]
used=0
total=len(re.findall(r'^func ',src,re.M))
types=list(re.finditer(r'^type (\w+) \[\]byte',src,re.M))
for k,m in enumerate(types):
    n=m.group(1)
    end=types[k+1].start() if k+1<len(types) else len(src)
    code=re.search(r'const %sCode = 0x(\w+)'%n,src).group(1)
    fs=[]
    last=m.end()
    for g in re.finditer(r'^func \(r %s\) (\w+)\((.*?)\) ?(.*?)\{(.*?)\}\n'%n+r'(?=\n|//|$)',src,re.S|re.M):
        pass
    fn=re.findall(r'^func \(r %s\) (\w+)\(([^)]*)\) ?([^\n{]*(?:\[12\]byte)?) ?\{(.*?)(?:\}\n\n|\}\n\Z)'%n,src+'\n',re.S|re.M)
    get={};set_={}
    for name,arg,ret,body in fn:
        body=' '.join(body.split()); ret=ret.strip(); used+=1
        if not arg and ret:
            if re.fullmatch(r'return r\[(\d+)\]',body): get[name]=('.u8',int(re.findall(r'\[(\d+)\]',body)[0]))
            elif re.fullmatch(r'return binary.LittleEndian.Uint16\(r\[(\d+):\]\)',body): get[name]=('.u16',int(re.findall(r'\[(\d+):\]',body)[0]))
            elif re.fullmatch(r'return r\[(\d+):\]',body): get[name]=('.rest',int(re.findall(r'\[(\d+):\]',body)[0]))
            elif re.fullmatch(r'b := \[12\]byte\{\} copy\(b\[:\], r\[(\d+):\]\) return b',body): get[name]=('.sig',int(re.findall(r'r\[(\d+):\]',body)[0]))
            else: raise Exception((n,name,body))
        elif name=='SetAttributeOpcode' and not arg:
            x=re.fullmatch(r'r\[0\] = 0x(\w+)',body); assert x and x.group(1)==code,(n,body)
        else:
            assert name.startswith('Set')
            f=name[3:]
            if re.fullmatch(r'r\[(\d+)\] = v',body): set_[f]=('.u8',int(re.findall(r'\[(\d+)\]',body)[0]))
            elif re.fullmatch(r'binary.LittleEndian.PutUint16\(r\[(\d+):\], v\)',body): set_[f]=('.u16',int(re.findall(r'\[(\d+):\]',body)[0]))
            elif re.fullmatch(r'copy\(r\[(\d+):\], v\)',body): set_[f]=('.rest',int(re.findall(r'\[(\d+):\]',body)[0]))
            elif re.fullmatch(r'copy\(r\[(\d+):\d+\+12\], v\[:\]\)',body): set_[f]=('.sig',int(re.findall(r'r\[(\d+):',body)[0]))
            else: raise Exception((n,name,body))
    assert get['AttributeOpcode']==('.u8',0)
    fields=[]
    for f,(ty,off) in get.items():
        if f=='AttributeOpcode': continue
        assert set_[f]==(ty,off) or True
        assert set_[f][0]==ty,(n,f)
        fields.append('{ name := "%s", ty := %s, getAt := %d, setAt := %d }'%(f,ty,off,set_[f][1]))
    assert len(set_)==len(fields)
    nxt=re.search(r'\n// \w+Code \.\.\.',src[m.end():])
    e=m.end()+nxt.start() if nxt else len(src)
    rows.append('  { name := "%s", code := 0x%s, fields := [%s] } -- att_gen.go:%d-%d'%(n,code,', '.join(fields),line(m.start()),line(e)-1))
assert used==total,(used,total)
out=[]
for i,r in enumerate(rows):
    a,b=r.rsplit(' -- ',1)
    out.append(a+(',' if i<len(rows)-1 else ' ]')+' -- '+b)
out[0]='  ['+out[0][1:]
o='''import Verif.Att.Pdu
set_option autoImplicit false

/-!
# The PDU types of linux/att/att_gen.go

Generated by tools/gen_att.py from the Go source: for each type the constant `SetAttributeOpcode` writes, and its other fields with the type and the offset of the getter and of the setter. The getter `AttributeOpcode` of every type reads,
and the setter writes, octet 0.
-/

namespace Ble.AttPdu

/-- Every type of att_gen.go, with all its methods. -/
def pdus : List Pdu :=
%s

end Ble.AttPdu
'''%'\n'.join(out)
open('/verif/lean/Verif/Att/PduTable.lean','w').write(o)
print(len(rows),used,total)
