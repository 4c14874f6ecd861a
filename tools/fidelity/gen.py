"""Reads the test fixtures of the repository as text and writes them to data.txt, and the expected models to exp.json."""
import ast,re,json,sys
import xml.etree.ElementTree as ET
from pathlib import Path
R=Path('/repo')
usrc=(R/'tests/utility.py').read_text()
umod=ast.parse(usrc)
consts={}
for n in umod.body:
    if isinstance(n,ast.Assign) and isinstance(n.value,ast.Constant): consts[n.targets[0].id]=n.value.value
def label_structure(content):
    m=re.search(r"^(?P<label>[\w\s\d()]+:?)(?P<brief>[\w\s\d,\".]*)$",content)
    return list(m.groups()) if m else [content]
def table_inner(table):
    content=""
    for i,tr in enumerate(table):
        content+="<tr>\n"
        for j,td in enumerate(tr):
            if i==0: content+=f"<th class='tcell0'><p><span class='txtfmt1'>{td}</span></p></th>\n"
            elif j!=0:
                content+="<td><p>\n"
                for k,txt in enumerate(label_structure(td)):
                    if k==0: content+=f"<span class='txtfmt1'>{txt}</span>"
                    elif txt!="": content+=f"<span>{txt}</span>"
                content+="</p></td>\n"
            else: content+=f"<td><p><span>{td}</span></p></td>\n"
        content+="</tr>\n"
    return consts['HTML_TABLE_TEMPLATE'].format(content=content,colspan=len(tr))
cases=[]
for f in sorted((R/'tests').glob('test_*.py')):
    if f.name=="test_end2end.py": continue
    for fn in ast.parse(f.read_text()).body:
        if not isinstance(fn,ast.FunctionDef): continue
        html=None; exp=None
        for n in ast.walk(fn):
            if isinstance(n,ast.Call) and isinstance(n.func,ast.Name) and n.func.id=='html_loader':
                html=(R/n.args[0].value).read_text()
            if isinstance(n,ast.Assign) and isinstance(n.value,ast.List):
                v=ast.literal_eval(n.value)
                if n.targets[0].id=='table': html=consts['HTML_DOC_TEMPLATE'].format(body=table_inner(v))
                else: exp=v
            if isinstance(n,ast.Compare) and isinstance(n.comparators[0],ast.List): exp=ast.literal_eval(n.comparators[0])
        if html: cases.append((fn.name,html,exp))
import sys
which=sys.argv[1] if len(sys.argv)>1 else 'tests'
if which!='tests':
    cases=[(f'spec{i}',p.read_text(),None) for i,p in enumerate(sorted((R/'example/stage1').glob('*.html')))]

def esc(t): return t.replace("\\","\\\\").replace("\n","\\n").replace("\r","\\r")
def ser(e,o):
    ks=[]
    if e.text: ks.append(e.text)
    for k in e:
        if isinstance(k.tag,str): ks.append(k)
        if k.tail: ks.append(k.tail)
    o.append("E"+esc(e.tag)); o.append(str(len(e.attrib)))
    for a,b in e.attrib.items(): o.append(esc(a)); o.append(esc(b))
    o.append(str(len(ks)))
    for k in ks:
        if isinstance(k,str): o.append("T"+esc(k))
        else: ser(k,o)
o=[]
for name,html,exp in cases:
    root=ET.fromstring(re.sub(r'<!DOCTYPE[^>]*>','',html).strip())
    o.append(name); ser(root,o)
Path('data.txt').write_text("\n".join(o)+"\n")
json.dump({n:e for n,_,e in cases},open('exp.json','w'))
