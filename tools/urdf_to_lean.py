"""Writes the fields of a URDF file that the model uses as a Lean value (used for lean/Verif/Validation/RepoTests.lean)."""
import xml.etree.ElementTree as E,sys
r=E.parse(sys.argv[1]).getroot()
def f(x):
    x=float(x); return '(%s)'%repr(x) if 'e' not in repr(x) else '(%.20f)'%x
def v(s): return '⟨%s⟩'%', '.join(f(x) for x in s.split())
def pose(e):
    o=e.find('origin') if e is not None else None
    a=o.attrib if o is not None else {}
    return '⟨%s, %s⟩'%(v(a.get('xyz','0 0 0')),v(a.get('rpy','0 0 0')))
def geo(g):
    c=list(g)[0]
    a=c.attrib
    if c.tag=='box': return '.box '+v(a['size'])
    if c.tag in('cylinder','capsule'): return '.%s %s %s'%(c.tag,f(a['radius']),f(a['length']))
    if c.tag=='sphere': return '.sphere '+f(a['radius'])
    return '.mesh "%s" %s'%(a['filename'],'(some %s)'%v(a['scale']) if 'scale' in a else 'none')
print('/-! written by tools/urdf_to_lean.py from urdf/sample.urdf -/')
js=[];ls=[]
for j in r.findall('joint'):
    ax=j.find('axis'); li=j.find('limit'); mi=j.find('mimic')
    la=li.attrib if li is not None else {}
    m='none'
    if mi is not None:
        o=lambda k:'(some %s)'%f(mi.attrib[k]) if k in mi.attrib else 'none'
        m='(some ⟨"%s", %s, %s⟩)'%(mi.attrib['joint'],o('multiplier'),o('offset'))
    js.append('{ name := "%s", kind := .%s, origin := %s, parentLink := "%s", childLink := "%s", axis := %s, lower := %s, upper := %s, mimic := %s }'%(
      j.attrib['name'],j.attrib['type'],pose(j),j.find('parent').attrib['link'],j.find('child').attrib['link'],
      v(ax.attrib['xyz']) if ax is not None else '⟨1,0,0⟩',f(la.get('lower','0')),f(la.get('upper','0')),m))
for l in r.findall('link'):
    i=l.find('inertial')
    g=lambda tag,k:(f(i.find(tag).attrib.get(k,'0')) if i is not None and i.find(tag) is not None else '0')
    ine='⟨%s, %s, %s⟩'%(pose(i),g('mass','value'),', '.join(g('inertia',k) for k in 'ixx ixy ixz iyy iyz izz'.split()))
    vs=', '.join('⟨%s, %s, %s, none⟩'%('some "%s"'%x.attrib['name'] if 'name' in x.attrib else 'none',pose(x),geo(x.find('geometry'))) for x in l.findall('visual'))
    cs=', '.join('⟨%s, %s, %s⟩'%('some "%s"'%x.attrib['name'] if 'name' in x.attrib else 'none',pose(x),geo(x.find('geometry'))) for x in l.findall('collision'))
    ls.append('{ name := "%s", inertial := %s, visual := [%s], collision := [%s] }'%(l.attrib['name'],ine,vs,cs))
print('def sampleRobot : Robot Float :=\n  { joints := [\n    '+',\n    '.join(js)+']\n    links := [\n    '+',\n    '.join(ls)+'] }')
